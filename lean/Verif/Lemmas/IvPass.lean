import Verif.Model.IvData
import Verif.Lemmas.CleanData
import Verif.Lemmas.Float

/-!
# Lemmas about taking one pass of a sweep
-/

namespace QMix.Fl

theorem argFrom_le {better : Flt → Flt → Prop} (best : Flt) (besti i : ℕ) (l : List Flt)
    (h : besti < i) : argFrom better best besti i l < i + l.length := by
  induction l generalizing best besti i with
  | nil => simpa [argFrom] using h
  | cons a l ih =>
    unfold argFrom
    rw [List.length_cons]
    split_ifs
    · have := ih a i (i + 1) (by omega); omega
    · have := ih best besti (i + 1) (by omega); omega

theorem argBest_lt {better : Flt → Flt → Prop} {l : List Flt} {i : ℕ}
    (h : argBest better l = .ok i) : i < l.length := by
  cases l with
  | nil => cases h
  | cons a l =>
    obtain rfl := Except.ok.inj h
    have := argFrom_le (better := better) a 0 1 l (by omega)
    rw [List.length_cons]; omega

end QMix.Fl

namespace QMix.Np

theorem slice_nat {α : Type*} (l : List α) (a b : ℕ) :
    slice l (some (a : ℤ)) (some (b : ℤ)) = (l.take b).drop a := by
  unfold slice bound
  simp only [Option.elim_some]
  rw [if_neg (by omega), if_neg (by omega)]
  simp only [Int.toNat_natCast]
  apply List.ext_getElem?
  intro i
  simp only [List.getElem?_drop, List.getElem?_take]
  rcases le_total a l.length with h | h
  · rw [min_eq_left h]
    split_ifs with h1 h2 h2
    · rfl
    · omega
    · rw [eq_comm, List.getElem?_eq_none_iff]; omega
    · rfl
  · rw [min_eq_right h, List.getElem?_eq_none (by omega), List.getElem?_eq_none (by omega)]
    simp

end QMix.Np

namespace QMix.IvData

open Np Fl Clean

/-- The result of `takeOnePass` on a list of points. -/
def IsPass (P : List (Flt × Flt)) (imin imax : ℕ) (Q : List (Flt × Flt)) : Prop :=
  (imin = 0 ∧ imax + 1 = P.length ∧ Q = P) ∨
  (imax = 0 ∧ imin + 1 = P.length ∧ Q = P.reverse) ∨
  (imax < imin ∧ ∃ k v0, P[0]? = some v0 ∧
    argminF (((P.take (imin + 1)).drop imax).map fun a => fabs (fsub a.1 v0.1)) = .ok k ∧
    k + imax ≤ imin ∧
    Q = ((P.take (imin + 1)).drop (k + imax)).reverse ++ P.take (imax + 1)) ∨
  (imin ≤ imax ∧ ∃ k v0, P[0]? = some v0 ∧
    argminF (((P.take (imax + 1)).drop imin).map fun a => fabs (fsub a.1 v0.1)) = .ok k ∧
    k + imin ≤ imax ∧
    Q = (P.take (imin + 1)).reverse ++ (P.take (imax + 1)).drop (k + imin))

theorem takeOnePass_eq (P : List (Flt × Flt)) (h : P ≠ []) : ∃ imin imax Q,
    argminF (P.map Prod.fst) = .ok imin ∧ argmaxF (P.map Prod.fst) = .ok imax ∧
    takeOnePass (P.map Prod.fst) (P.map Prod.snd) = .ok (Q.map Prod.fst, Q.map Prod.snd) ∧
    IsPass P imin imax Q ∧ imin < P.length ∧ imax < P.length := by
  have hne : P.map Prod.fst ≠ [] := by simpa using h
  have hlen : 0 < P.length := List.length_pos_iff.2 h
  obtain ⟨imin, h1⟩ : ∃ i, argminF (P.map Prod.fst) = .ok i := argBest_ok hne
  obtain ⟨imax, h2⟩ : ∃ i, argmaxF (P.map Prod.fst) = .ok i := argBest_ok hne
  have l1 : imin < P.length := by simpa using argBest_lt h1
  have l2 : imax < P.length := by simpa using argBest_lt h2
  have g0 : pyGet (P.map Prod.fst) 0 = .ok (P[0].1) := by
    apply pyGet_ok_of_getElem? (i := 0)
    · rw [pyIndex_nonneg le_rfl (by simpa using hlen)]; rfl
    · simp [hlen]
  have s1 : ∀ (f : Flt × Flt → Flt) (a b : ℕ), slice (P.map f) (some (a : ℤ)) (some ((b : ℤ) + 1)) =
      ((P.take (b + 1)).drop a).map f := by
    intro f a b
    have := slice_nat (P.map f) a (b + 1)
    push_cast at this
    rw [this, ← List.map_take, ← List.map_drop]
  have s0 : ∀ (f : Flt × Flt → Flt) (b : ℕ), slice (P.map f) (some 0) (some ((b : ℤ) + 1)) =
      (P.take (b + 1)).map f := by
    intro f b
    have := s1 f 0 b
    push_cast at this
    rw [this, List.drop_zero]
  by_cases c1 : imin = 0 ∧ (imax : ℤ) = ((P.map Prod.snd).length : ℤ) - 1
  · refine ⟨imin, imax, P, h1, h2, ?_, Or.inl ⟨c1.1, ?_, rfl⟩, l1, l2⟩
    · unfold takeOnePass
      rw [h1, py_bind, h2, py_bind, if_pos c1]; rfl
    · have := c1.2; rw [List.length_map] at this; omega
  by_cases c2 : imax = 0 ∧ (imin : ℤ) = ((P.map Prod.snd).length : ℤ) - 1
  · refine ⟨imin, imax, P.reverse, h1, h2, ?_, Or.inr (Or.inl ⟨c2.1, ?_, rfl⟩), l1, l2⟩
    · unfold takeOnePass
      rw [h1, py_bind, h2, py_bind, if_neg c1, if_pos c2, List.map_reverse, List.map_reverse]; rfl
    · have := c2.2; rw [List.length_map] at this; omega
  by_cases c3 : imax < imin
  · have hs : ((P.take (imin + 1)).drop imax).map (fun a => fabs (fsub a.1 P[0].1)) ≠ [] := by
      intro he
      have := congrArg List.length he
      simp at this; omega
    obtain ⟨k, hk⟩ : ∃ k, argminF (((P.take (imin + 1)).drop imax).map
      (fun a => fabs (fsub a.1 P[0].1))) = .ok k := argBest_ok hs
    have hkl := argBest_lt hk
    simp only [List.length_map, List.length_drop, List.length_take] at hkl
    refine ⟨imin, imax, _, h1, h2, ?_, Or.inr (Or.inr (Or.inl ⟨c3, k, P[0], by simp [hlen], hk,
      by omega, rfl⟩)), l1, l2⟩
    unfold takeOnePass
    rw [h1, py_bind, h2, py_bind, if_neg c1, if_neg c2, if_pos c3, g0, py_bind, s1, List.map_map]
    have : ((fun a => fabs (fsub a P[0].1)) ∘ Prod.fst : Flt × Flt → Flt) =
      fun a => fabs (fsub a.1 P[0].1) := rfl
    rw [this, hk, py_bind]
    dsimp only
    rw [s1, s0, s1, s0]
    simp only [List.map_append, List.map_reverse]
    rfl
  · have hs : ((P.take (imax + 1)).drop imin).map (fun a => fabs (fsub a.1 P[0].1)) ≠ [] := by
      intro he
      have := congrArg List.length he
      simp at this; omega
    obtain ⟨k, hk⟩ : ∃ k, argminF (((P.take (imax + 1)).drop imin).map
      (fun a => fabs (fsub a.1 P[0].1))) = .ok k := argBest_ok hs
    have hkl := argBest_lt hk
    simp only [List.length_map, List.length_drop, List.length_take] at hkl
    refine ⟨imin, imax, _, h1, h2, ?_, Or.inr (Or.inr (Or.inr ⟨by omega, k, P[0], by simp [hlen], hk,
      by omega, rfl⟩)), l1, l2⟩
    unfold takeOnePass
    rw [h1, py_bind, h2, py_bind, if_neg c1, if_neg c2, if_neg c3, g0, py_bind, s1, List.map_map]
    have : ((fun a => fabs (fsub a P[0].1)) ∘ Prod.fst : Flt × Flt → Flt) =
      fun a => fabs (fsub a.1 P[0].1) := rfl
    rw [this, hk, py_bind]
    dsimp only
    rw [s1, s0, s1, s0]
    simp only [List.map_append, List.map_reverse]
    rfl

theorem IsPass.mem {P Q : List (Flt × Flt)} {a b : ℕ} (h : IsPass P a b Q) :
    ∀ p ∈ Q, p ∈ P := by
  intro p hp
  rcases h with ⟨-, -, rfl⟩ | ⟨-, -, rfl⟩ | ⟨-, k, v0, -, -, -, rfl⟩ | ⟨-, k, v0, -, -, -, rfl⟩
  · exact hp
  · exact List.mem_reverse.1 hp
  · rcases List.mem_append.1 hp with hp | hp
    · exact List.mem_of_mem_take (List.mem_of_mem_drop (List.mem_reverse.1 hp))
    · exact List.mem_of_mem_take hp
  · rcases List.mem_append.1 hp with hp | hp
    · exact List.mem_of_mem_take (List.mem_reverse.1 hp)
    · exact List.mem_of_mem_take (List.mem_of_mem_drop hp)

theorem mem_take_drop {α : Type*} {l : List α} {a b i : ℕ} {p : α} (h : l[i]? = some p)
    (ha : a ≤ i) (hb : i < b) : p ∈ (l.take b).drop a := by
  apply List.mem_of_getElem? (i := i - a)
  rw [List.getElem?_drop, List.getElem?_take, if_pos (by omega), show a + (i - a) = i by omega]
  exact h

/-- The points of lowest and highest voltage are kept. -/
theorem IsPass.ends {P Q : List (Flt × Flt)} {a b : ℕ} (h : IsPass P a b Q) {p : Flt × Flt}
    (hp : P[a]? = some p ∨ P[b]? = some p) : p ∈ Q := by
  have hm : p ∈ P := by rcases hp with hp | hp <;> exact List.mem_of_getElem? hp
  rcases h with ⟨-, -, rfl⟩ | ⟨-, -, rfl⟩ | ⟨hlt, k, v0, -, -, hk, rfl⟩ | ⟨hlt, k, v0, -, -, hk, rfl⟩
  · exact hm
  · exact List.mem_reverse.2 hm
  · rw [List.mem_append, List.mem_reverse]
    rcases hp with hp | hp
    · exact Or.inl (mem_take_drop hp hk (by omega))
    · exact Or.inr (mem_take_drop (a := 0) hp (by omega) (by omega))
  · rw [List.mem_append, List.mem_reverse]
    rcases hp with hp | hp
    · exact Or.inl (mem_take_drop (a := 0) hp (by omega) (by omega))
    · exact Or.inr (mem_take_drop hp hk (by omega))

theorem zip_fst_snd {α β : Type*} (Q : List (α × β)) :
    (Q.map Prod.fst).zip (Q.map Prod.snd) = Q := by
  induction Q with
  | nil => rfl
  | cons a l ih => simp [ih]

/-- Voltages of points measured one after the other. -/
noncomputable def volts (N : ℕ) (f : ℕ → ℝ × ℝ) : List Flt := tab N fun j => num (f j).1

/-- Currents of points measured one after the other. -/
noncomputable def amps (N : ℕ) (f : ℕ → ℝ × ℝ) : List Flt := tab N fun j => num (f j).2

/-- Points measured one after the other. -/
noncomputable def points (N : ℕ) (f : ℕ → ℝ × ℝ) : List (Flt × Flt) :=
  tab N fun j => (num (f j).1, num (f j).2)

theorem points_length (N : ℕ) (f : ℕ → ℝ × ℝ) : (points N f).length = N := by simp [points]

theorem points_ne {N n : ℕ} {f : ℕ → ℝ × ℝ} (h : n < N) : points N f ≠ [] := by
  intro he
  have := congrArg List.length he
  rw [points_length, List.length_nil] at this
  omega

theorem points_fst (N : ℕ) (f : ℕ → ℝ × ℝ) : (points N f).map Prod.fst = volts N f := map_tab _ _ _

theorem points_snd (N : ℕ) (f : ℕ → ℝ × ℝ) : (points N f).map Prod.snd = amps N f := map_tab _ _ _

theorem points_take {N k : ℕ} {f : ℕ → ℝ × ℝ} (h : k ≤ N) : (points N f).take k = points k f :=
  take_tab h _

theorem points_drop (N k : ℕ) (f : ℕ → ℝ × ℝ) :
    (points N f).drop k = points (N - k) fun i => f (k + i) := drop_tab _ _ _

theorem points_reverse (N : ℕ) (f : ℕ → ℝ × ℝ) :
    (points N f).reverse = points N fun i => f (N - 1 - i) := reverse_tab _ _

theorem volts_congr {N : ℕ} {f g : ℕ → ℝ × ℝ} (h : ∀ i < N, f i = g i) : volts N f = volts N g :=
  tab_ext rfl fun i hi => by rw [h i hi]

theorem amps_congr {N : ℕ} {f g : ℕ → ℝ × ℝ} (h : ∀ i < N, f i = g i) : amps N f = amps N g :=
  tab_ext rfl fun i hi => by rw [h i hi]

theorem none_not_mem_nums {N : ℕ} (f : ℕ → ℝ) : none ∉ tab N fun j => num (f j) := by
  rw [mem_tab]
  rintro ⟨i, -, h⟩
  exact num_ne_none _ h

theorem argminF_volts {N a n : ℕ} {f : ℕ → ℝ × ℝ} (h : argminF (volts N f) = .ok a) (hn : n < N)
    (hlo : ∀ i < N, i ≠ n → (f n).1 < (f i).1) : n = a := by
  obtain ⟨x, hx, hm⟩ := argminF_spec h (none_not_mem_nums _)
  unfold volts at hx hm
  rw [tab_get?] at hx
  split_ifs at hx with ha
  obtain rfl := Option.some.inj hx
  by_contra hc
  exact hm _ (mem_tab.2 ⟨n, hn, rfl⟩) (flt_num.2 (hlo a ha (Ne.symm hc)))

theorem argmaxF_volts {N a n : ℕ} {f : ℕ → ℝ × ℝ} (h : argmaxF (volts N f) = .ok a) (hn : n < N)
    (hhi : ∀ i < N, i ≠ n → (f i).1 < (f n).1) : n = a := by
  obtain ⟨x, hx, hm⟩ := argmaxF_spec h (none_not_mem_nums _)
  unfold volts at hx hm
  rw [tab_get?] at hx
  split_ifs at hx with ha
  obtain rfl := Option.some.inj hx
  by_contra hc
  exact hm _ (mem_tab.2 ⟨n, hn, rfl⟩) (flt_num.2 (hhi a ha (Ne.symm hc)))

/-- The nearest voltage. -/
theorem nearest {M k : ℕ} {g : ℕ → ℝ × ℝ} {v0 : Flt × Flt} {x : ℝ × ℝ}
    (h : argminF ((points M g).map fun a => fabs (fsub a.1 v0.1)) = .ok k)
    (h0 : v0 = (num x.1, num x.2)) : ∀ j < M, |(g k).1 - x.1| ≤ |(g j).1 - x.1| := by
  subst h0
  unfold points at h
  rw [map_tab] at h
  simp only [fsub_num, fabs_num] at h
  obtain ⟨y, hy, hm⟩ := argminF_spec h (none_not_mem_nums _)
  rw [tab_get?] at hy
  split_ifs at hy with hk
  obtain rfl := Option.some.inj hy
  intro j hj
  by_contra hc
  exact hm _ (mem_tab.2 ⟨j, hj, rfl⟩) (flt_num.2 (not_le.1 hc))

end QMix.IvData
