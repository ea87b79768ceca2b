import Verif.Props.OffsetSearch

/-!
# The search for the offset, with noise and a minimiser that is not exact
-/

namespace QMix.IvData

open Np RespFn QMix.Spec
open QMix.Exp (onLine_unique)

/-- The minimiser finds the least value of a function that is not negative, up to `ε`. -/
def NearlyExact (R : Routines) (ε : ℝ) : Prop :=
  ∀ (f : ℝ × ℝ → ℝ) (x0 : ℝ × ℝ), (∀ y, 0 ≤ f y) → ∀ y, f (R.minimize f x0) ≤ f y + ε

/-- The measured points: the true curve with an offset and with errors of the currents. -/
noncomputable def noisy (L : List (ℝ × ℝ)) (v0 i0 : ℝ) (e : ℝ → ℝ) : List (ℝ × ℝ) :=
  L.map fun p => (p.1 + v0, p.2 + i0 + e p.1)

/-! ## Lemmas -/

/-- Errors of the points are not amplified by interpolation. -/
theorem interpAt_noise {ν : ℝ} (g : ℝ × ℝ → ℝ) (x : ℝ) : ∀ T : List (ℝ × ℝ), Incr T → (∀ p ∈ T, |g p| ≤ ν) → T ≠ [] →
    |interpAt (T.map fun p => (p.1, p.2 + g p)) x - interpAt T x| ≤ ν
  | [], _, _, h => absurd rfl h
  | [a], _, hg, _ => by
    have := hg a (by simp)
    simpa [interpAt, npInterp] using this
  | a :: b :: l, hT, hg, _ => by
    have hT' := (List.pairwise_cons.1 hT).2
    have hab : a.1 < b.1 := (List.pairwise_cons.1 hT).1 b (by simp)
    have ih := interpAt_noise g x (b :: l) hT' (fun p hp => hg p (List.mem_cons_of_mem _ hp)) (by simp)
    have ha := abs_le.1 (hg a (by simp))
    have hb := abs_le.1 (hg b (by simp))
    unfold interpAt at ih ⊢
    simp only [List.map_cons, List.map_map, Function.comp_def] at ih ⊢
    rw [npInterp, npInterp]
    by_cases hc : ∃ c ∈ b.1 :: l.map fun p => p.1, c ≤ x
    · rw [if_pos hc, if_pos hc]
      exact ih
    · rw [if_neg hc, if_neg hc]
      split_ifs with hx
      · simpa using hg a (by simp)
      · have hxb : x < b.1 := by
          by_contra hh
          exact hc ⟨b.1, by simp, by linarith⟩
        set t := (x - a.1) / (b.1 - a.1) with ht
        have hd : 0 < b.1 - a.1 := by linarith
        have t0 : 0 ≤ t := div_nonneg (by linarith) hd.le
        have t1 : t ≤ 1 := by rw [ht, div_le_one hd]; linarith
        have e : a.2 + g a + (b.2 + g b - (a.2 + g a)) / (b.1 - a.1) * (x - a.1) -
            (a.2 + (b.2 - a.2) / (b.1 - a.1) * (x - a.1)) = (1 - t) * g a + t * g b := by
          rw [ht]; field_simp; ring
        rw [e, abs_le]
        constructor <;> nlinarith [ha.1, ha.2, hb.1, hb.2]

theorem interpAt_shift (a b x : ℝ) : ∀ S : List (ℝ × ℝ), S ≠ [] →
    interpAt (S.map fun p => (p.1 - a, p.2 - b)) x = interpAt S (x + a) - b
  | [], h => absurd rfl h
  | [p], _ => by simp [interpAt, npInterp]
  | p :: q :: l, _ => by
    have ih := interpAt_shift a b x (q :: l) (by simp)
    rw [List.map_cons, List.map_cons, interpAt_cons, interpAt_cons]
    rw [List.map_cons] at ih
    have hiff : (∃ c ∈ (q.1 - a, q.2 - b) :: l.map (fun p => (p.1 - a, p.2 - b)), c.1 ≤ x) ↔ ∃ c ∈ q :: l, c.1 ≤ x + a := by
      rw [← List.map_cons (f := fun p : ℝ × ℝ => (p.1 - a, p.2 - b))]
      constructor
      · rintro ⟨c, hc, hx⟩
        obtain ⟨c, hc', rfl⟩ := List.mem_map.1 hc
        exact ⟨c, hc', by dsimp only at hx; linarith⟩
      · rintro ⟨c, hc, hx⟩
        exact ⟨_, List.mem_map.2 ⟨c, hc, rfl⟩, by dsimp only; linarith⟩
    by_cases hc : ∃ c ∈ q :: l, c.1 ≤ x + a
    · rw [if_pos (hiff.2 hc), if_pos hc]
      exact ih
    · rw [if_neg fun h => hc (hiff.1 h), if_neg hc]
      dsimp only
      by_cases hx : x + a < p.1
      · rw [if_pos (show x < p.1 - a by linarith), if_pos hx]
      · rw [if_neg (show ¬ x < p.1 - a by intro h; exact hx (by linarith)), if_neg hx]
        rw [show q.1 - a - (p.1 - a) = q.1 - p.1 by ring, show q.2 - b - (p.2 - b) = q.2 - p.2 by ring]
        ring

theorem searched_noisy (L : List (ℝ × ℝ)) (r v0 i0 : ℝ) (e : ℝ → ℝ) :
    searched (noisy L v0 i0 e) r = (searched (shifted L v0 i0) r).map fun p => (p.1, p.2 + e (p.1 - v0)) := by
  unfold searched noisy shifted
  rw [List.filter_map, List.filter_map, List.map_map]
  apply List.map_congr_left
  intro p _
  simp

theorem noisy_fst (L : List (ℝ × ℝ)) (v0 i0 : ℝ) (e : ℝ → ℝ) :
    (noisy L v0 i0 e).map Prod.fst = (shifted L v0 i0).map Prod.fst := by
  unfold noisy shifted
  rw [List.map_map, List.map_map]
  rfl

theorem map_fst_noise (T : List (ℝ × ℝ)) (g : ℝ × ℝ → ℝ) : (T.map fun p => (p.1, p.2 + g p)).map Prod.fst = T.map Prod.fst := by
  rw [List.map_map]; rfl

theorem incr_noise {T : List (ℝ × ℝ)} (g : ℝ × ℝ → ℝ) (hT : Incr T) : Incr (T.map fun p => (p.1, p.2 + g p)) := by
  unfold Incr at *
  rw [List.pairwise_map]
  exact hT

theorem sum_close {n : ℕ} {f g : ℕ → ℝ} {η : ℝ} (h : ∀ k, f k ≤ g k + η) :
    ((List.range n).map f).sum ≤ ((List.range n).map g).sum + n * η := by
  induction n with
  | zero => simp
  | succ n ih =>
    rw [List.range_succ, List.map_append, List.map_append, List.sum_append, List.sum_append]
    simp only [List.map_cons, List.map_nil, List.sum_cons, List.sum_nil, add_zero]
    push_cast
    linarith [h n]

theorem two_le_sum {n : ℕ} (f : ℕ → ℝ) (hf : ∀ k, 0 ≤ f k) {a b : ℕ} (hab : a < b) (hb : b < n) :
    f a + f b ≤ ((List.range n).map f).sum := by
  have hs : ∀ n, ((List.range n).map f).sum = ∑ k ∈ Finset.range n, f k := by
    intro n
    induction n with
    | zero => simp
    | succ n ih =>
      rw [List.range_succ, List.map_append, List.sum_append, ih, Finset.sum_range_succ]
      simp
  rw [hs, ← Finset.sum_pair (f := f) hab.ne]
  apply Finset.sum_le_sum_of_subset_of_nonneg
  · intro k hk
    simp only [Finset.mem_insert, Finset.mem_singleton] at hk
    rw [Finset.mem_range]
    omega
  · intro k _ _
    exact hf k

/-- The mismatch changes by at most twice the noise at every voltage. -/
theorem mismatch_noise {T : List (ℝ × ℝ)} {ν : ℝ} (g : ℝ × ℝ → ℝ) (r : ℝ) (off : ℝ × ℝ) (hT : Incr T) (hne : T ≠ [])
    (hg : ∀ p ∈ T, |g p| ≤ ν) :
    |mismatch (-r) r ((T.map fun p => (p.1, p.2 + g p)).map Prod.fst) ((T.map fun p => (p.1, p.2 + g p)).map Prod.snd) off -
      mismatch (-r) r (T.map Prod.fst) (T.map Prod.snd) off| ≤ 202 * ν := by
  rw [mismatch_points _ _ _ (incr_noise g hT) (by simpa using hne), mismatch_points _ _ _ hT hne]
  set C := T.map fun p => (p.1 - off.1, p.2 - off.2) with hC
  have e : ((T.map fun p => (p.1, p.2 + g p)).map fun p => (p.1 - off.1, p.2 - off.2)) =
      C.map fun p => (p.1, p.2 + g (p.1 + off.1, p.2 + off.2)) := by
    rw [hC, List.map_map, List.map_map]
    apply List.map_congr_left
    intro p _
    simp
    ring
  rw [e]
  have hCi : Incr C := by
    unfold Incr
    rw [hC, List.pairwise_map]
    exact hT.imp fun h => by dsimp only; linarith
  have hn := fun x => abs_le.1 (interpAt_noise (ν := ν) (fun p => g (p.1 + off.1, p.2 + off.2)) x C hCi (by
    intro p hp
    obtain ⟨q, hq, rfl⟩ := List.mem_map.1 hp
    simpa using hg q hq) (by simpa [hC] using hne))
  generalize interpAt (C.map fun p => (p.1, p.2 + g (p.1 + off.1, p.2 + off.2))) = F at hn ⊢
  generalize interpAt C = G at hn ⊢
  have key : ∀ F G : ℝ → ℝ, (∀ x, |F x - G x| ≤ ν) → ((List.range 101).map fun k : ℕ => |F (-r / 2 + k * (r / 100)) + F (-(-r / 2 + k * (r / 100)))|).sum
      ≤ ((List.range 101).map fun k : ℕ => |G (-r / 2 + k * (r / 100)) + G (-(-r / 2 + k * (r / 100)))|).sum + (101 : ℕ) * (2 * ν) := by
    intro F G h
    apply sum_close
    intro k
    generalize -r / 2 + (k : ℝ) * (r / 100) = x
    have h1 := h x
    have h2 := h (-x)
    have h3 : F x + F (-x) = (G x + G (-x)) + ((F x - G x) + (F (-x) - G (-x))) := by ring
    rw [h3]
    have h4 := abs_add_le (G x + G (-x)) ((F x - G x) + (F (-x) - G (-x)))
    have h5 := abs_add_le (F x - G x) (F (-x) - G (-x))
    linarith
  have k1 := key F G fun x => abs_le.2 (hn x)
  have k2 := key G F fun x => by rw [abs_sub_comm]; exact abs_le.2 (hn x)
  push_cast at k1 k2
  rw [abs_le]
  constructor <;> linarith

/-! ## C188 -/

/-- C188. The offset found for an odd curve, measured with an offset `(v0, i0)` and errors of the current of at most `ν`, with a minimiser
that is exact up to `ε`: if it differs by `(d, c)` from the true one, the true curve is symmetric around `(d, c)` up to `404 ν + ε`, at
every voltage that is compared and is not too close to the ends (and the sum of two deviations is not larger, either). -/
theorem C188_symmetric (R : Routines) {ε : ℝ} (hR : NearlyExact R ε) (o : Opts) {L : List (ℝ × ℝ)} {r v0 δ ν : ℝ} (i0 : ℝ)
    (e : ℝ → ℝ) (h : OddCurve L r v0 δ) (he : ∀ p ∈ L, |e p.1| ≤ ν) (ho : o.voffsetRange.pair = (-r, r)) :
    ∃ d c : ℝ, correctOffset R o ((noisy L v0 i0 e).map Prod.fst) ((noisy L v0 i0 e).map Prod.snd) =
        .ok (((noisy L v0 i0 e).map Prod.fst).map (· - (v0 + d)), ((noisy L v0 i0 e).map Prod.snd).map (· - (i0 + c)), (v0 + d, i0 + c)) ∧
      ∀ k₁ k₂ : ℕ, k₁ < k₂ → k₂ ≤ 100 → ∀ x₁ x₂, x₁ = -r / 2 + k₁ * (r / 100) → x₂ = -r / 2 + k₂ * (r / 100) →
        |x₁| + |d| ≤ r / 2 → |x₂| + |d| ≤ r / 2 → ∀ y₁ z₁ y₂ z₂,
        OnLine L (x₁ + d) y₁ → OnLine L (x₁ - d) z₁ → OnLine L (x₂ + d) y₂ → OnLine L (x₂ - d) z₂ →
        |y₁ - z₁ - 2 * c| + |y₂ - z₂ - 2 * c| ≤ 404 * ν + ε := by
  classical
  have hv := abs_le.1 (le_refl |v0|)
  obtain ⟨p, hp, hpr⟩ := h.reach
  have hq := odd_mem h.odd hp
  set N := noisy L v0 i0 e with hN
  have hpv : p.1 + v0 ∈ N.map Prod.fst := List.mem_map.2 ⟨_, List.mem_map.2 ⟨p, hp, rfl⟩, rfl⟩
  have hqv : -p.1 + v0 ∈ N.map Prod.fst := List.mem_map.2 ⟨_, List.mem_map.2 ⟨_, hq, rfl⟩, rfl⟩
  have hne : N.map Prod.fst ≠ [] := List.ne_nil_of_mem hpv
  obtain ⟨hi, h1⟩ := amax_ok hne
  obtain ⟨lo, h2⟩ := amax_ok (l := (N.map Prod.fst).map fun t => -t) (by simpa using hne)
  have hhi := (amax_le h1 hi).1 le_rfl _ hpv
  have hlo := (amax_le h2 lo).1 le_rfl _ (List.mem_map.2 ⟨_, hqv, rfl⟩)
  have hmin : minimum (N.map Prod.fst) = .ok (-lo) := by
    unfold minimum
    rw [h2, py_bind]
    rfl
  set F := mismatch (-r) r ((searched N r).map Prod.fst) ((searched N r).map Prod.snd) with hF
  have hTi := searched_incr (i0 := i0) h
  have hTn := searched_ne (i0 := i0) h
  set T := searched (shifted L v0 i0) r with hT
  have hNT : searched N r = T.map fun p => (p.1, p.2 + e (p.1 - v0)) := searched_noisy L r v0 i0 e
  have hNn : searched N r ≠ [] := by rw [hNT]; simpa using hTn
  obtain ⟨x0, hx0⟩ : ∃ x0, correctOffset R o (N.map Prod.fst) (N.map Prod.snd) =
      .ok ((N.map Prod.fst).map (· - (R.minimize F x0).1), (N.map Prod.snd).map (· - (R.minimize F x0).2), R.minimize F x0) := by
    refine ⟨(o.voffset.getD 0, o.ioffset.getD (((searched N r).map Prod.snd).sum / ((searched N r).map Prod.snd).length)), ?_⟩
    unfold correctOffset
    rw [ho]
    dsimp only
    rw [hmin, py_bind, h1, py_bind, if_neg (by
      rw [not_not]
      constructor <;> linarith), masked_points, py_bind, raiseIf_neg (by
        simpa [searched] using hNn)]
    rfl
  have hz := hR F x0 (fun y => mismatch_nonneg _ _ _ _ _) (v0, i0)
  generalize R.minimize F x0 = off at hz hx0
  refine ⟨off.1 - v0, off.2 - i0, ?_, ?_⟩
  · rw [hx0]
    simp
  have hge : ∀ p ∈ T, |e (p.1 - v0)| ≤ ν := by
    intro p hp
    obtain ⟨q, hq, rfl⟩ := List.mem_map.1 (List.mem_of_mem_filter hp)
    simpa using he q hq
  have m1 := abs_le.1 (mismatch_noise (fun p => e (p.1 - v0)) r off hTi hTn hge)
  have m2 := abs_le.1 (mismatch_noise (fun p => e (p.1 - v0)) r (v0, i0) hTi hTn hge)
  rw [← hNT] at m1 m2
  rw [hT, C158_true_partial i0 h] at m2
  have hm : mismatch (-r) r (T.map Prod.fst) (T.map Prod.snd) off ≤ 404 * ν + ε := by
    have a1 := m1.1
    have a2 := m2.2
    rw [hF] at hz
    linarith
  rw [mismatch_points _ _ _ hTi hTn] at hm
  set d := off.1 - v0 with hd
  set c := off.2 - i0 with hc
  have hJ : ∀ x, |x + d| ≤ r / 2 → interpAt (T.map fun p => (p.1 - off.1, p.2 - off.2)) x = interpAt L (x + d) - c := by
    intro x hx
    rw [← searched_interp h hx, interpAt_shift _ _ _ _ hTn]
    have e1 : ((searched (L.map fun p => (p.1 + v0, p.2)) r).map fun p => (p.1 - v0, p.2)) = T.map fun p => (p.1 - v0, p.2 - i0) := by
      rw [hT]
      unfold searched shifted
      rw [List.filter_map, List.filter_map, List.map_map, List.map_map]
      apply List.map_congr_left
      intro p _
      simp
    rw [e1, interpAt_shift _ _ _ _ hTn, hd, hc]
    rw [show x + (off.1 - v0) + v0 = x + off.1 by ring]
    ring
  have hterm : ∀ x, |x| + |d| ≤ r / 2 → ∀ y z, OnLine L (x + d) y → OnLine L (x - d) z →
      |interpAt (T.map fun p => (p.1 - off.1, p.2 - off.2)) x + interpAt (T.map fun p => (p.1 - off.1, p.2 - off.2)) (-x)| =
        |y - z - 2 * c| := by
    intro x hx y z hy hz
    rw [hJ x ((abs_add_le _ _).trans hx), hJ (-x) ((abs_add_le _ _).trans (by rw [abs_neg]; exact hx)),
      show -x + d = -(x - d) by ring, odd_interp h, ← onLine_unique h.incr hy, ← onLine_unique h.incr hz]
    congr 1
    ring
  rintro k₁ k₂ hk hk2 x₁ x₂ rfl rfl hx1 hx2 y₁ z₁ y₂ z₂ a1 b1 a2 b2
  rw [← hterm _ hx1 _ _ a1 b1, ← hterm _ hx2 _ _ a2 b2]
  refine le_trans ?_ hm
  exact two_le_sum (n := 101) (fun k : ℕ => |interpAt (T.map fun p => (p.1 - off.1, p.2 - off.2)) (-r / 2 + k * (r / 100)) +
    interpAt (T.map fun p => (p.1 - off.1, p.2 - off.2)) (-(-r / 2 + k * (r / 100)))|) (fun k => abs_nonneg _) hk (by omega)

/-- C188. How wrong the offset of a curve that is not straight is: if the slope of the true curve is at least `s₁` near one of the voltages
that are compared, and between zero and `s₂ < s₁` near another one (both within `D`), then an offset that is not wrong by more than `D` is
wrong by at most `(404 ν + ε) / (2 (s₁ - s₂))`. -/
theorem C188_offset (R : Routines) {ε : ℝ} (hR : NearlyExact R ε) (o : Opts) {L : List (ℝ × ℝ)} {r v0 δ ν : ℝ} (i0 : ℝ)
    (e : ℝ → ℝ) (h : OddCurve L r v0 δ) (he : ∀ p ∈ L, |e p.1| ≤ ν) (ho : o.voffsetRange.pair = (-r, r))
    {k₁ k₂ : ℕ} (hk : k₁ ≠ k₂) (hk₁ : k₁ ≤ 100) (hk₂ : k₂ ≤ 100) {x₁ x₂ D s₁ s₂ : ℝ} (hx₁ : x₁ = -r / 2 + k₁ * (r / 100))
    (hx₂ : x₂ = -r / 2 + k₂ * (r / 100)) (hD₁ : |x₁| + D ≤ r / 2) (hD₂ : |x₂| + D ≤ r / 2) (hs : s₂ < s₁)
    (hs₁ : ∀ x y x' y', OnLine L x y → OnLine L x' y' → x₁ - D ≤ x → x ≤ x' → x' ≤ x₁ + D → s₁ * (x' - x) ≤ y' - y)
    (hs₂ : ∀ x y x' y', OnLine L x y → OnLine L x' y' → x₂ - D ≤ x → x ≤ x' → x' ≤ x₂ + D → 0 ≤ y' - y ∧ y' - y ≤ s₂ * (x' - x)) :
    ∃ d c : ℝ, correctOffset R o ((noisy L v0 i0 e).map Prod.fst) ((noisy L v0 i0 e).map Prod.snd) =
        .ok (((noisy L v0 i0 e).map Prod.fst).map (· - (v0 + d)), ((noisy L v0 i0 e).map Prod.snd).map (· - (i0 + c)), (v0 + d, i0 + c)) ∧
      (|d| ≤ D → |d| ≤ (404 * ν + ε) / (2 * (s₁ - s₂)) ∧ |c| ≤ (404 * ν + ε) / 2 + s₂ * |d|) := by
  obtain ⟨d, c, hc, hsym⟩ := C188_symmetric R hR o i0 e h he ho
  refine ⟨d, c, hc, fun hd => ?_⟩
  obtain ⟨p, hp, hpr⟩ := h.reach
  have hq := odd_mem h.odd hp
  have hv0 := abs_nonneg v0
  have hon : ∀ x, |x| ≤ r / 2 → OnLine L x (interpAt L x) := by
    intro x hx
    have h1 := abs_le.1 hx
    have h0 := (abs_nonneg x).trans hx
    exact interpAt_onLine h.incr ⟨_, hq, by dsimp only; linarith⟩ ⟨_, hp, by linarith⟩
  have g1 : |x₁| + |d| ≤ r / 2 := by linarith
  have g2 : |x₂| + |d| ≤ r / 2 := by linarith
  have hon' : ∀ x, |x| + |d| ≤ r / 2 → OnLine L (x + d) (interpAt L (x + d)) ∧ OnLine L (x - d) (interpAt L (x - d)) := by
    intro x hx
    refine ⟨hon _ ((abs_add_le _ _).trans hx), hon _ ?_⟩
    rw [sub_eq_add_neg]
    exact (abs_add_le _ _).trans (by rw [abs_neg]; exact hx)
  obtain ⟨a1, b1⟩ := hon' x₁ g1
  obtain ⟨a2, b2⟩ := hon' x₂ g2
  generalize interpAt L (x₁ + d) = y₁ at *
  generalize interpAt L (x₁ - d) = z₁ at *
  generalize interpAt L (x₂ + d) = y₂ at *
  generalize interpAt L (x₂ - d) = z₂ at *
  have key : |y₁ - z₁ - 2 * c| + |y₂ - z₂ - 2 * c| ≤ 404 * ν + ε := by
    rcases lt_or_gt_of_ne hk with hk | hk
    · exact hsym k₁ k₂ hk hk₂ x₁ x₂ hx₁ hx₂ g1 g2 _ _ _ _ a1 b1 a2 b2
    · rw [add_comm]
      exact hsym k₂ k₁ hk hk₁ x₂ x₁ hx₂ hx₁ g2 g1 _ _ _ _ a2 b2 a1 b1
  have t1 := abs_nonneg (y₁ - z₁ - 2 * c)
  have t2 := abs_le.1 (le_refl |y₁ - z₁ - 2 * c|)
  have t3 := abs_nonneg (y₂ - z₂ - 2 * c)
  have t4 := abs_le.1 (le_refl |y₂ - z₂ - 2 * c|)
  have hdd := abs_le.1 hd
  have hpos : 0 < 2 * (s₁ - s₂) := by linarith
  rw [le_div_iff₀ hpos]
  rcases le_total 0 d with h0 | h0
  · have c1 := hs₁ _ _ _ _ b1 a1 (by linarith) (by linarith) (by linarith)
    have c2 := hs₂ _ _ _ _ b2 a2 (by linarith) (by linarith) (by linarith)
    rw [abs_of_nonneg h0]
    refine ⟨by nlinarith [c2.1, c2.2, t2.1, t2.2, t4.1, t4.2], ?_⟩
    rw [abs_le]
    constructor <;> nlinarith [c2.1, c2.2, t2.1, t2.2, t4.1, t4.2]
  · have c1 := hs₁ _ _ _ _ a1 b1 (by linarith) (by linarith) (by linarith)
    have c2 := hs₂ _ _ _ _ a2 b2 (by linarith) (by linarith) (by linarith)
    rw [abs_of_nonpos h0]
    refine ⟨by nlinarith [c2.1, c2.2, t2.1, t2.2, t4.1, t4.2], ?_⟩
    rw [abs_le]
    constructor <;> nlinarith [c2.1, c2.2, t2.1, t2.2, t4.1, t4.2]

open Classical in
/-- Routines with a minimiser that is exact up to `ε`. -/
noncomputable def nearlyIdeal (ε : ℝ) : Routines :=
  { ideal with minimize := fun f x0 => if h : ∃ z, ∀ y, f z ≤ f y + ε then h.choose else x0 }

theorem nearlyIdeal_nearly {ε : ℝ} (hε : 0 < ε) : NearlyExact (nearlyIdeal ε) ε := by
  classical
  intro f x0 hf y
  have hbd : BddBelow (Set.range f) := ⟨0, by rintro _ ⟨y, rfl⟩; exact hf y⟩
  have hex : ∃ z, ∀ y, f z ≤ f y + ε := by
    obtain ⟨z, hz⟩ := exists_lt_of_ciInf_lt (show (⨅ y, f y) < (⨅ y, f y) + ε by linarith)
    exact ⟨z, fun y => by linarith [ciInf_le hbd y]⟩
  have hm : (nearlyIdeal ε).minimize f x0 = hex.choose := dif_pos hex
  rw [hm]
  exact hex.choose_spec y

/-- A curve that is flat up to 1 and straight with slope 1 above, with steps of 1. -/
def bent : List (ℝ × ℝ) :=
  [(-5, -4), (-4, -3), (-3, -2), (-2, -1), (-1, 0), (0, 0), (1, 0), (2, 1), (3, 2), (4, 3), (5, 4)]

theorem bent_odd : OddCurve bent 4 0.25 1 where
  incr := by unfold bent; norm_num [List.pairwise_cons]
  odd := by unfold bent; norm_num
  step := by
    rintro a b ⟨s, u, e⟩
    unfold bent at e
    rcases s with _ | ⟨_, _ | ⟨_, _ | ⟨_, _ | ⟨_, _ | ⟨_, _ | ⟨_, _ | ⟨_, _ | ⟨_, _ | ⟨_, _ | ⟨_, _ | ⟨_, s⟩⟩⟩⟩⟩⟩⟩⟩⟩⟩⟩ <;> simp at e <;>
      (casesm* _ ∧ _ <;> subst_vars <;> norm_num)
  nonneg := by norm_num
  small := by rw [abs_of_pos] <;> norm_num
  reach := ⟨(5, 4), by unfold bent; simp, by rw [abs_of_pos] <;> norm_num⟩

/-- `C188_offset` applies to it: with errors of the current up to 1/10000 and a minimiser that is exact up to 1/100, an offset that is not wrong
by more than 0.4 is not wrong by more than 0.03. -/
example (o : Opts) (ho : o.voffsetRange = .one 4) (i0 : ℝ) (e : ℝ → ℝ) (he : ∀ p ∈ bent, |e p.1| ≤ 1 / 10000) :
    ∃ d c : ℝ, correctOffset (nearlyIdeal (1 / 100)) o ((noisy bent 0.25 i0 e).map Prod.fst) ((noisy bent 0.25 i0 e).map Prod.snd) =
        .ok (((noisy bent 0.25 i0 e).map Prod.fst).map (· - (0.25 + d)), ((noisy bent 0.25 i0 e).map Prod.snd).map (· - (i0 + c)),
          (0.25 + d, i0 + c)) ∧ (|d| ≤ 0.4 → |d| ≤ 0.03 ∧ |c| ≤ 0.03) := by
  have hi := bent_odd.incr
  obtain ⟨d, c, h1, h2⟩ := C188_offset (nearlyIdeal (1 / 100)) (nearlyIdeal_nearly (by norm_num)) o i0 e bent_odd he (by rw [ho]; rfl)
    (k₁ := 88) (k₂ := 50) (by norm_num) (by norm_num) (by norm_num) (x₁ := 1.52) (x₂ := 0) (D := 0.4) (s₁ := 1) (s₂ := 0)
    (by norm_num) (by norm_num) (by rw [abs_of_pos] <;> norm_num) (by norm_num) (by norm_num) (by
      have key : ∀ x y, OnLine bent x y → 1.12 ≤ x → x ≤ 1.92 → y = x - 1 := by
        intro x y hy g1 g2
        have : OnLine bent x (x - 1) := Or.inr ⟨(1, 0), (2, 1), x - 1,
          ⟨[(-5, -4), (-4, -3), (-3, -2), (-2, -1), (-1, 0), (0, 0)], [(3, 2), (4, 3), (5, 4)], rfl⟩, by linarith, by linarith,
          by dsimp only; ring, by dsimp only; ring⟩
        rw [onLine_unique hi hy, ← onLine_unique hi this]
      intro x y x' y' a b g1 g2 g3
      rw [key x y a (by norm_num at *; linarith) (by norm_num at *; linarith), key x' y' b (by norm_num at *; linarith) (by norm_num at *; linarith)]
      linarith) (by
      have key : ∀ x y, OnLine bent x y → -0.4 ≤ x → x ≤ 0.4 → y = 0 := by
        intro x y hy g1 g2
        have : OnLine bent x 0 := by
          rcases le_total 0 x with h0 | h0
          · exact Or.inr ⟨(0, 0), (1, 0), x,
              ⟨[(-5, -4), (-4, -3), (-3, -2), (-2, -1), (-1, 0)], [(2, 1), (3, 2), (4, 3), (5, 4)], rfl⟩, h0, by linarith,
              by dsimp only; ring, by dsimp only; ring⟩
          · exact Or.inr ⟨(-1, 0), (0, 0), x + 1,
              ⟨[(-5, -4), (-4, -3), (-3, -2), (-2, -1)], [(1, 0), (2, 1), (3, 2), (4, 3), (5, 4)], rfl⟩, by linarith, by linarith,
              by dsimp only; ring, by dsimp only; ring⟩
        rw [onLine_unique hi hy, ← onLine_unique hi this]
      intro x y x' y' a b g1 g2 g3
      rw [key x y a (by norm_num at *; linarith) (by norm_num at *; linarith), key x' y' b (by norm_num at *; linarith) (by norm_num at *; linarith)]
      norm_num)
  refine ⟨d, c, h1, fun hd => ?_⟩
  obtain ⟨h3, h4⟩ := h2 hd
  norm_num at h3 h4 ⊢
  constructor <;> linarith

end QMix.IvData
