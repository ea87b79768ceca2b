import Verif.Props.IvData4
import Verif.Props.Figures

/-!
# The automatic search for the offset of a dc I-V curve
-/

namespace QMix.IvData

open Np RespFn QMix.Spec
open QMix.Exp (onLine_unique)

/-- A curve turned by 180 degrees around the origin. -/
def turned (L : List (ℝ × ℝ)) : List (ℝ × ℝ) := (L.map fun p => (-p.1, -p.2)).reverse

theorem turned_incr {L : List (ℝ × ℝ)} (hL : Incr L) : Incr (turned L) := by
  unfold Incr turned
  rw [List.pairwise_reverse, List.pairwise_map]
  exact hL.imp fun h => by simpa using h

theorem turned_onLine {L : List (ℝ × ℝ)} {x y : ℝ} (h : OnLine L x y) : OnLine (turned L) (-x) (-y) := by
  unfold turned
  rcases h with h | ⟨a, b, t, ⟨s, u, e⟩, h0, h1, hx, hy⟩
  · exact Or.inl (List.mem_reverse.2 (List.mem_map.2 ⟨_, h, rfl⟩))
  · refine Or.inr ⟨(-b.1, -b.2), (-a.1, -a.2), 1 - t, ?_, by linarith, by linarith, ?_, ?_⟩
    · refine ⟨(u.map fun p => (-p.1, -p.2)).reverse, (s.map fun p => (-p.1, -p.2)).reverse, ?_⟩
      rw [← e]
      simp
    · rw [hx]; ring
    · rw [hy]; ring

/-- Interpolation of the turned curve. -/
theorem interpAt_turned {L : List (ℝ × ℝ)} (hL : Incr L) (hne : L ≠ []) (x : ℝ) :
    interpAt (turned L) x = -interpAt L (-x) := by
  have ht := turned_incr hL
  rcases interpAt_cases L hL hne (-x) with ⟨a, l, rfl, hx, e⟩ | ⟨l, a, rfl, hx, e⟩ | ⟨l, a, b, l', rfl, hx, hx', -⟩
  · rw [e]
    have e2 : turned (a :: l) = turned l ++ [(-a.1, -a.2)] := by simp [turned]
    rw [e2] at ht ⊢
    exact interpAt_above _ _ ht _ (by dsimp only; linarith)
  · rw [e]
    have e2 : turned (l ++ [a]) = (-a.1, -a.2) :: turned l := by simp [turned]
    rw [e2] at ht ⊢
    exact interpAt_below _ _ ht _ (by dsimp only; linarith)
  · have := turned_onLine (interpAt_onLine hL (x := -x) ⟨a, by simp, hx⟩ ⟨b, by simp, hx'.le⟩)
    rw [neg_neg] at this
    exact (onLine_unique ht this).symm

/-- The mismatch is the sum of the deviations from oddness. -/
theorem mismatch_points (r : ℝ) (M : List (ℝ × ℝ)) (off : ℝ × ℝ) (hM : Incr M) (hne : M ≠ []) :
    mismatch (-r) r (M.map Prod.fst) (M.map Prod.snd) off =
      ((List.range 101).map fun k : ℕ =>
        |interpAt (M.map fun p => (p.1 - off.1, p.2 - off.2)) (-r / 2 + k * (r / 100)) +
          interpAt (M.map fun p => (p.1 - off.1, p.2 - off.2)) (-(-r / 2 + k * (r / 100)))|).sum := by
  set C := M.map fun p => (p.1 - off.1, p.2 - off.2) with hC
  have hCi : Incr C := by
    unfold Incr
    rw [hC, List.pairwise_map]
    exact hM.imp fun h => by dsimp only; linarith
  have hCn : C ≠ [] := by simpa [hC] using hne
  unfold mismatch tab
  dsimp only
  rw [List.map_map]
  congr 1
  apply List.map_congr_left
  intro k _
  dsimp only [Function.comp]
  have e1 : (M.map Prod.fst).map (· - off.1) = C.map Prod.fst := by simp [hC, Function.comp_def]
  have e2 : (M.map Prod.snd).map (· - off.2) = C.map Prod.snd := by simp [hC, Function.comp_def]
  rw [e1, e2]
  have e3 : ((C.map Prod.fst).reverse.map fun t => -t) = (turned C).map Prod.fst := by
    simp [turned, Function.comp_def]
  have e4 : ((C.map Prod.snd).reverse.map fun t => -t) = (turned C).map Prod.snd := by
    simp [turned, Function.comp_def]
  rw [e3, e4]
  have := interpAt_turned hCi hCn (-r / 2 + k * (r / 100))
  unfold interpAt at this
  have e5 : (-r / 2 + (k : ℝ) * ((r / 2 - -r / 2) / 100)) = -r / 2 + k * (r / 100) := by ring
  rw [e5, this, sub_neg_eq_add]

/-- A true curve: odd, with steps of at most `δ`, measured beyond the range `r` of the search, with an offset `v0` of the
voltage that is not too large for the range. -/
structure OddCurve (L : List (ℝ × ℝ)) (r v0 δ : ℝ) : Prop where
  incr : L.Pairwise fun p q => p.1 < q.1
  odd : L.reverse = L.map fun p => (-p.1, -p.2)
  step : ∀ a b, [a, b] <:+: L → b.1 - a.1 ≤ δ
  nonneg : 0 ≤ δ
  small : |v0| + δ ≤ r / 2
  reach : ∃ p ∈ L, r + |v0| < p.1

open Classical in
/-- The points used for the search. -/
noncomputable def searched (L : List (ℝ × ℝ)) (r : ℝ) : List (ℝ × ℝ) :=
  L.filter fun p => decide (-r ≤ p.1 ∧ p.1 ≤ r)

theorem odd_mem {L : List (ℝ × ℝ)} (h : L.reverse = L.map fun p => (-p.1, -p.2)) {p : ℝ × ℝ} (hp : p ∈ L) :
    (-p.1, -p.2) ∈ L := by
  have : (-p.1, -p.2) ∈ L.map fun p : ℝ × ℝ => (-p.1, -p.2) := List.mem_map.2 ⟨p, hp, rfl⟩
  rw [← h] at this
  exact List.mem_reverse.1 this

/-- In the middle the points used for the search, without the offset, make the same broken line as the true curve. -/
theorem searched_interp {L : List (ℝ × ℝ)} {r v0 δ : ℝ} (h : OddCurve L r v0 δ) {x : ℝ} (hx : |x| ≤ r / 2) :
    interpAt ((searched (L.map fun p => (p.1 + v0, p.2)) r).map fun p => (p.1 - v0, p.2)) x = interpAt L x := by
  classical
  have e : ((searched (L.map fun p => (p.1 + v0, p.2)) r).map fun p => (p.1 - v0, p.2)) =
      L.filter fun p => decide (-r ≤ p.1 + v0 ∧ p.1 + v0 ≤ r) := by
    unfold searched
    rw [List.filter_map, List.map_map]
    rw [show ((fun p : ℝ × ℝ => (p.1 - v0, p.2)) ∘ fun p : ℝ × ℝ => (p.1 + v0, p.2)) = id from by
      funext p; simp, List.map_id]
    rfl
  rw [e]
  have hv := abs_le.1 (le_refl |v0|)
  have hsm := h.small
  obtain ⟨hx1, hx2⟩ := abs_le.1 hx
  obtain ⟨p, hp, hpr⟩ := h.reach
  have hr0 : 0 ≤ |v0| := abs_nonneg _
  have hq := odd_mem h.odd hp
  have hδ : 0 ≤ r := by
    have := abs_nonneg x
    linarith
  have hon := interpAt_onLine h.incr (x := x) ⟨_, hq, by dsimp only; linarith⟩ ⟨_, hp, by linarith⟩
  refine (onLine_unique (List.Pairwise.filter _ h.incr) ?_).symm
  rcases hon with hm | ⟨a, b, t, ⟨s, u, e2⟩, h0, h1, hx', hy⟩
  · left
    refine List.mem_filter.2 ⟨hm, decide_eq_true ?_⟩
    have := h.nonneg
    constructor <;> dsimp only <;> linarith
  · right
    have hab := h.step a b ⟨s, u, e2⟩
    have hlt : a.1 < b.1 := by
      have hL := h.incr
      rw [← e2] at hL
      have h1 := (List.pairwise_append.1 hL).1
      have h2 := (List.pairwise_append.1 h1).2.1
      exact (List.pairwise_cons.1 h2).1 b (by simp)
    have ha : a.1 ≤ x := by rw [hx']; nlinarith
    have hb : x ≤ b.1 := by rw [hx']; nlinarith
    refine ⟨a, b, t, ?_, h0, h1, hx', hy⟩
    rw [← e2, List.filter_append, List.filter_append]
    refine ⟨s.filter fun p => decide (-r ≤ p.1 + v0 ∧ p.1 + v0 ≤ r), u.filter fun p => decide (-r ≤ p.1 + v0 ∧ p.1 + v0 ≤ r), ?_⟩
    · congr 2
      simp only [List.filter_cons, List.filter_nil]
      rw [if_pos (decide_eq_true ⟨by linarith, by linarith⟩), if_pos (decide_eq_true ⟨by linarith, by linarith⟩)]

/-- The measured points: the true curve with an offset. -/
noncomputable def shifted (L : List (ℝ × ℝ)) (v0 i0 : ℝ) : List (ℝ × ℝ) := L.map fun p => (p.1 + v0, p.2 + i0)

theorem odd_interp {L : List (ℝ × ℝ)} {r v0 δ : ℝ} (h : OddCurve L r v0 δ) {x : ℝ} :
    interpAt L (-x) = -interpAt L x := by
  have hne : L ≠ [] := by
    obtain ⟨p, hp, -⟩ := h.reach
    rintro rfl
    cases hp
  have := interpAt_turned h.incr hne x
  have e : turned L = L := by
    unfold turned
    rw [← h.odd, List.reverse_reverse]
  rw [e] at this
  rw [this, neg_neg]

/-- The points used for the search are increasing, and there are some. -/
theorem searched_incr {L : List (ℝ × ℝ)} {r v0 δ i0 : ℝ} (h : OddCurve L r v0 δ) :
    Incr (searched (shifted L v0 i0) r) := by
  unfold searched shifted Incr
  apply List.Pairwise.filter
  rw [List.pairwise_map]
  exact h.incr.imp fun h => by dsimp only; linarith

theorem searched_ne {L : List (ℝ × ℝ)} {r v0 δ i0 : ℝ} (h : OddCurve L r v0 δ) :
    searched (shifted L v0 i0) r ≠ [] := by
  classical
  have hv := abs_le.1 (le_refl |v0|)
  have hsm := h.small
  have hδ := h.nonneg
  obtain ⟨p, hp, hpr⟩ := h.reach
  have hr0 : 0 ≤ |v0| := abs_nonneg _
  have hq := odd_mem h.odd hp
  have hon := interpAt_onLine h.incr (x := 0) ⟨_, hq, by dsimp only; linarith⟩ ⟨_, hp, by linarith⟩
  have : ∃ a ∈ L, |a.1| ≤ δ := by
    rcases hon with hm | ⟨a, b, t, ⟨s, u, e2⟩, h0, h1, hx', hy⟩
    · exact ⟨_, hm, by dsimp only; rw [abs_zero]; exact hδ⟩
    · have hab := h.step a b ⟨s, u, e2⟩
      have hlt : a.1 < b.1 := by
        have hL := h.incr
        rw [← e2] at hL
        have h1 := (List.pairwise_append.1 hL).1
        have h2 := (List.pairwise_append.1 h1).2.1
        exact (List.pairwise_cons.1 h2).1 b (by simp)
      refine ⟨a, by rw [← e2]; simp, ?_⟩
      rw [abs_le]
      constructor <;> nlinarith
  obtain ⟨a, ha, hal⟩ := this
  obtain ⟨h1, h2⟩ := abs_le.1 hal
  intro h0
  have hm : (a.1 + v0, a.2 + i0) ∈ searched (shifted L v0 i0) r := by
    refine List.mem_filter.2 ⟨List.mem_map.2 ⟨a, ha, rfl⟩, decide_eq_true ?_⟩
    constructor <;> dsimp only <;> linarith
  rw [h0] at hm
  cases hm

/-- C158: the true offset makes the mismatch vanish, which is the least possible. -/
theorem C158_true_partial {L : List (ℝ × ℝ)} {r v0 δ : ℝ} (i0 : ℝ) (h : OddCurve L r v0 δ) :
    mismatch (-r) r ((searched (shifted L v0 i0) r).map Prod.fst) ((searched (shifted L v0 i0) r).map Prod.snd)
      (v0, i0) = 0 := by
  classical
  rw [mismatch_points _ _ _ (searched_incr h) (searched_ne h)]
  have e : ((searched (shifted L v0 i0) r).map fun p => (p.1 - (v0, i0).1, p.2 - (v0, i0).2)) =
      (searched (L.map fun p => (p.1 + v0, p.2)) r).map fun p => (p.1 - v0, p.2) := by
    unfold searched shifted
    rw [List.filter_map, List.filter_map, List.map_map, List.map_map]
    apply List.map_congr_left
    intro p _
    simp
  rw [e]
  apply List.sum_eq_zero
  intro t ht
  obtain ⟨k, hk, rfl⟩ := List.mem_map.1 ht
  have hk := List.mem_range.1 hk
  have hk' : (k : ℝ) ≤ 100 := by exact_mod_cast Nat.lt_succ_iff.1 hk
  have hk0 : (0 : ℝ) ≤ k := Nat.cast_nonneg k
  have hr : 0 ≤ r := by
    have := h.small
    have := h.nonneg
    have := abs_nonneg v0
    linarith
  have hx : |-r / 2 + k * (r / 100)| ≤ r / 2 := by
    rw [abs_le]
    constructor <;> nlinarith
  rw [searched_interp h hx, searched_interp h (by rwa [abs_neg]), odd_interp h]
  simp

/-- C158: with an exact minimiser, the curve corrected by the offset that is found is odd at all 101 voltages that
are compared, wherever both sides of it have been used for the search. -/
theorem C158_odd_partial (R : Routines) (hR : Exact R) (o : Opts) {L : List (ℝ × ℝ)} {r v0 δ : ℝ} (i0 : ℝ)
    (h : OddCurve L r v0 δ) (ho : o.voffsetRange.pair = (-r, r)) :
    ∃ off : ℝ × ℝ, correctOffset R o ((shifted L v0 i0).map Prod.fst) ((shifted L v0 i0).map Prod.snd) =
        .ok (((shifted L v0 i0).map Prod.fst).map (· - off.1), ((shifted L v0 i0).map Prod.snd).map (· - off.2), off) ∧
      ∀ k : ℕ, k ≤ 100 → ∀ y z,
        OnLine ((searched (shifted L v0 i0) r).map fun p => (p.1 - off.1, p.2 - off.2)) (-r / 2 + k * (r / 100)) y →
        OnLine ((searched (shifted L v0 i0) r).map fun p => (p.1 - off.1, p.2 - off.2)) (-(-r / 2 + k * (r / 100))) z →
        z = -y := by
  classical
  have hv := abs_le.1 (le_refl |v0|)
  obtain ⟨p, hp, hpr⟩ := h.reach
  have hq := odd_mem h.odd hp
  have hpv : p.1 + v0 ∈ (shifted L v0 i0).map Prod.fst :=
    List.mem_map.2 ⟨_, List.mem_map.2 ⟨p, hp, rfl⟩, rfl⟩
  have hqv : -p.1 + v0 ∈ (shifted L v0 i0).map Prod.fst :=
    List.mem_map.2 ⟨_, List.mem_map.2 ⟨_, hq, rfl⟩, rfl⟩
  have hne : (shifted L v0 i0).map Prod.fst ≠ [] := List.ne_nil_of_mem hpv
  obtain ⟨hi, h1⟩ := amax_ok hne
  obtain ⟨lo, h2⟩ := amax_ok (l := ((shifted L v0 i0).map Prod.fst).map fun t => -t) (by simpa using hne)
  have hhi := (amax_le h1 hi).1 le_rfl _ hpv
  have hlo := (amax_le h2 lo).1 le_rfl _ (List.mem_map.2 ⟨_, hqv, rfl⟩)
  have hmin : minimum ((shifted L v0 i0).map Prod.fst) = .ok (-lo) := by
    unfold minimum
    rw [h2, py_bind]
    rfl
  set F := mismatch (-r) r ((searched (shifted L v0 i0) r).map Prod.fst) ((searched (shifted L v0 i0) r).map Prod.snd)
    with hF
  obtain ⟨x0, hx0⟩ : ∃ x0, correctOffset R o ((shifted L v0 i0).map Prod.fst) ((shifted L v0 i0).map Prod.snd) =
      .ok (((shifted L v0 i0).map Prod.fst).map (· - (R.minimize F x0).1),
        ((shifted L v0 i0).map Prod.snd).map (· - (R.minimize F x0).2), R.minimize F x0) := by
    refine ⟨(o.voffset.getD 0, o.ioffset.getD (((searched (shifted L v0 i0) r).map Prod.snd).sum /
      ((searched (shifted L v0 i0) r).map Prod.snd).length)), ?_⟩
    · unfold correctOffset
      rw [ho]
      dsimp only
      rw [hmin, py_bind, h1, py_bind, if_neg (by
        rw [not_not]
        constructor <;> linarith), masked_points, py_bind, raiseIf_neg (by
          have := searched_ne (i0 := i0) h
          simpa [searched] using this)]
      rfl
  refine ⟨_, hx0, ?_⟩
  have hz := hR F x0 ⟨(v0, i0), fun y => by rw [hF, C158_true_partial i0 h]; exact mismatch_nonneg _ _ _ _ _⟩ (v0, i0)
  have hzero : F (R.minimize F x0) = 0 := by
    refine le_antisymm ?_ (mismatch_nonneg _ _ _ _ _)
    rw [show F (v0, i0) = 0 from C158_true_partial i0 h] at hz
    exact hz
  generalize R.minimize F x0 = off at hzero
  rw [hF, mismatch_points _ _ _ (searched_incr h) (searched_ne h)] at hzero
  intro k hk y z hy hzz
  have hCi : Incr ((searched (shifted L v0 i0) r).map fun p => (p.1 - off.1, p.2 - off.2)) := by
    unfold Incr
    rw [List.pairwise_map]
    exact (searched_incr h).imp fun h => by dsimp only; linarith
  have hterm := List.single_le_sum (l := (List.range 101).map fun k : ℕ =>
    |interpAt ((searched (shifted L v0 i0) r).map fun p => (p.1 - off.1, p.2 - off.2)) (-r / 2 + k * (r / 100)) +
      interpAt ((searched (shifted L v0 i0) r).map fun p => (p.1 - off.1, p.2 - off.2)) (-(-r / 2 + k * (r / 100)))|) (by
    intro t ht
    obtain ⟨k, -, rfl⟩ := List.mem_map.1 ht
    exact abs_nonneg _) _ (List.mem_map.2 ⟨k, List.mem_range.2 (Nat.lt_succ_of_le hk), rfl⟩)
  rw [hzero] at hterm
  have hterm := abs_nonpos_iff.1 hterm
  rw [← onLine_unique hCi hy, ← onLine_unique hCi hzz] at hterm
  linarith

/-- A cubic curve with steps of 1, searched up to 2.5, with an offset of 0.25. -/
example : OddCurve [(-3, -27), (-2, -8), (-1, -1), (0, 0), (1, 1), (2, 8), (3, 27)] 2.5 0.25 1 where
  incr := by norm_num [List.pairwise_cons]
  odd := by norm_num
  step := by
    rintro a b ⟨s, u, e⟩
    rcases s with _ | ⟨_, _ | ⟨_, _ | ⟨_, _ | ⟨_, _ | ⟨_, _ | ⟨_, _ | ⟨_, s⟩⟩⟩⟩⟩⟩⟩ <;> simp at e <;>
      (casesm* _ ∧ _ <;> subst_vars <;> norm_num)
  nonneg := by norm_num
  small := by rw [abs_of_pos] <;> norm_num
  reach := ⟨(3, 27), by simp, by rw [abs_of_pos] <;> norm_num⟩

open Classical in
/-- An exact minimiser with a preference for one point. -/
noncomputable def prefers (x : ℝ × ℝ) : Routines :=
  { ideal with minimize := fun f x0 => if ∀ y, f x ≤ f y then x else ideal.minimize f x0 }

theorem prefers_exact (x : ℝ × ℝ) : Exact (prefers x) := by
  classical
  intro f x0 h y
  change f (if ∀ y, f x ≤ f y then x else ideal.minimize f x0) ≤ f y
  split_ifs with hx
  · exact hx y
  · exact ideal_exact f x0 h y

theorem prefers_min (x : ℝ × ℝ) (f : ℝ × ℝ → ℝ) (x0 : ℝ × ℝ) (h : ∀ y, f x ≤ f y) :
    (prefers x).minimize f x0 = x := if_pos h

/-- C158: the offset that is found need not be the offset of the data. The points of a resistor, measured without any
offset, are shifted along the resistor by an exact minimiser. -/
theorem C158_false_offset (o : Opts) (ho : o.voffsetRange = .one 1) :
    ∃ R, Exact R ∧ ∃ v' i' off, correctOffset R o [-2, -1, 1, 2] [-2, -1, 1, 2] = .ok (v', i', off) ∧
      off = (1 / 4, 1 / 4) := by
  refine ⟨prefers (1 / 4, 1 / 4), prefers_exact _, ?_⟩
  set R := prefers (1 / 4, 1 / 4)
  have e : ∃ x0, correctOffset R o [-2, -1, 1, 2] [-2, -1, 1, 2] =
      .ok ([-2, -1, 1, 2].map (· - (R.minimize (mismatch (-1) 1 [-1, 1] [-1, 1]) x0).1),
        [-2, -1, 1, 2].map (· - (R.minimize (mismatch (-1) 1 [-1, 1] [-1, 1]) x0).2),
        R.minimize (mismatch (-1) 1 [-1, 1] [-1, 1]) x0) := by
    refine ⟨(o.voffset.getD 0, o.ioffset.getD (([-1, 1] : List ℝ).sum / ([-1, 1] : List ℝ).length)), ?_⟩
    have m1 : minimum [-2, -1, 1, 2] = .ok (-2) := by
      unfold minimum amax
      norm_num [py_bind]
    have m2 : amax [(-2 : ℝ), -1, 1, 2] = .ok 2 := by unfold amax; norm_num
    have m3 : masked (([-2, -1, 1, 2] : List ℝ).map fun t => decide (-1 ≤ t ∧ t ≤ 1)) [(-2 : ℝ), -1, 1, 2]
        [(-2 : ℝ), -1, 1, 2] = .ok ([-1, 1], [-1, 1]) := by
      have := masked_points (fun t : ℝ => decide (-1 ≤ t ∧ t ≤ 1))
        [((-2 : ℝ), (-2 : ℝ)), (-1, -1), (1, 1), (2, 2)]
      simp only [List.map_cons, List.map_nil] at this
      simp only [List.map_cons, List.map_nil]
      rw [this]
      norm_num [List.filter_cons]
    have hp : o.voffsetRange.pair = (-1, 1) := by rw [ho]; rfl
    unfold correctOffset
    rw [hp]
    dsimp only
    rw [m1, py_bind, m2, py_bind, if_neg (by norm_num), m3, py_bind, raiseIf_neg (by simp)]
    rfl
  obtain ⟨x0, e⟩ := e
  refine ⟨_, _, _, e, ?_⟩
  apply prefers_min
  intro y
  rw [mismatch_two _ _ (by rw [abs_of_pos] <;> norm_num)]
  simpa using mismatch_nonneg _ _ _ _ y

end QMix.IvData
