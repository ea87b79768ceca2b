import Verif.Lemmas.MathFn2
import Verif.Lemmas.SlopeSpan
import Verif.Spec.Filters

/-!
# What the filters and derivatives compute
-/

namespace QMix.Props

open QMix.Np QMix.MathFn QMix.Spec

/-! ## C155: the smoothing filter -/

/-- There is a continuation by reflection. -/
theorem mirrored_exists (x : List ℝ) : ∃ e, Mirrored x e := by
  refine ⟨fun k => x.getD (reflect x.length k) 0, ?_, ?_, ?_⟩
  · intro k t ht
    have hk : k < x.length := by
      by_contra hh
      rw [List.getElem?_eq_none (by omega)] at ht
      cases ht
    have : reflect x.length k = k := by unfold reflect; split_ifs <;> omega
    rw [this, List.getD_eq_getElem?_getD, ht]
    rfl
  · intro k hk
    congr 1
    unfold reflect
    split_ifs <;> omega
  · intro k hk
    congr 1
    unfold reflect
    split_ifs <;> omega

theorem mirrored_reflect {x : List ℝ} {e : ℤ → ℝ} (he : Mirrored x e) {k : ℤ} (h1 : -(x.length : ℤ) < k)
    (h2 : k < 2 * (x.length : ℤ) - 1) : e k = x.getD (reflect x.length k) 0 := by
  have inside : ∀ m : ℕ, m < x.length → e m = x.getD m 0 := by
    intro m hm
    exact he.inside m _ (by rw [List.getD_eq_getElem?_getD, List.getElem?_eq_getElem hm]; rfl)
  by_cases c1 : k < 0
  · have hk : k = -((-k).toNat : ℤ) := by omega
    have e1 := he.first (-k).toNat (by omega)
    rw [← hk] at e1
    rw [e1, inside _ (by omega)]
    unfold reflect
    rw [if_pos c1]
  · by_cases c2 : (x.length : ℤ) ≤ k
    · have e1 := he.last (k - (x.length - 1)).toNat (by omega)
      rw [show (x.length : ℤ) - 1 + ((k - (x.length - 1)).toNat : ℤ) = k by omega,
        show (x.length : ℤ) - 1 - ((k - (x.length - 1)).toNat : ℤ) =
          ((2 * ((x.length : ℤ) - 1) - k).toNat : ℕ) by omega] at e1
      rw [e1, inside _ (by omega)]
      unfold reflect
      rw [if_neg c1, if_pos c2]
    · obtain ⟨m, rfl⟩ := Int.eq_ofNat_of_zero_le (not_lt.1 c1)
      rw [inside m (by omega)]
      unfold reflect
      rw [if_neg c1, if_neg c2, Int.toNat_natCast]

/-- C155: `gauss_conv` accepts exactly the windows that reach to the neighbours and that the data can hold. -/
theorem C155_accepts (x : List ℝ) (sigma ext : ℝ) :
    (∃ y, gaussConv x sigma ext = .ok y) ↔ 1 ≤ sigma * ext ∧ 2 * (sigma * ext) + 1e-5 ≤ x.length := by
  have hw : winLen sigma ext ≤ x.length ↔ 2 * (sigma * ext) + 1e-5 ≤ x.length := by
    unfold winLen
    rw [Int.toNat_le, Int.ceil_le]
    push_cast
    rw [show ext * sigma + 1 / 10 ^ 5 - -(ext * sigma) = 2 * (sigma * ext) + 1e-5 by norm_num; ring]
  constructor
  · rintro ⟨y, hy⟩
    obtain ⟨h1, h2, -⟩ := gaussConv_ok hy
    exact ⟨h1, hw.1 h2⟩
  · rintro ⟨h1, h2⟩
    exact ⟨_, gaussConv_eq h1 (hw.2 h2)⟩

/-- C155: the result is the data smoothed with a bell curve of width `sigma`. -/
theorem C155_average {x y : List ℝ} {sigma ext : ℝ} (h : gaussConv x sigma ext = .ok y) :
    Smoothed sigma ext x y := by
  obtain ⟨h1, h2, rfl⟩ := gaussConv_ok h
  have h3 := winLen_ge h1
  refine ⟨tab_length _ _, ?_⟩
  set L := winLen sigma ext with hL
  have hc : (L : ℤ) = ⌈ext * sigma + 1 / 10 ^ 5 - -(ext * sigma)⌉ := by
    have : L = ⌈ext * sigma + 1 / 10 ^ 5 - -(ext * sigma)⌉.toNat := rfl
    omega
  have hlo : (L : ℝ) - 1 < 2 * (sigma * ext) + 1e-5 := by
    have := Int.ceil_lt_add_one (ext * sigma + 1 / 10 ^ 5 - -(ext * sigma))
    rw [← hc] at this
    push_cast at this
    norm_num at this ⊢
    linarith
  have hhi : 2 * (sigma * ext) + 1e-5 ≤ (L : ℝ) := by
    have := Int.le_ceil (ext * sigma + 1 / 10 ^ 5 - -(ext * sigma))
    rw [← hc] at this
    push_cast at this
    norm_num at this ⊢
    linarith
  obtain ⟨c, hc2⟩ : ∃ c, c = L / 2 := ⟨_, rfl⟩
  have hh1 : (L : ℝ) - 1 ≤ 2 * (c : ℝ) := by
    have : L ≤ 2 * c + 1 := by omega
    have : (L : ℝ) ≤ 2 * (c : ℝ) + 1 := by exact_mod_cast this
    linarith
  have hh2 : 2 * (c : ℝ) ≤ L := by
    have : 2 * c ≤ L := by omega
    exact_mod_cast this
  refine ⟨c - sigma * ext, c - L + 1, c, ?_, ?_, ?_, ?_, ?_⟩
  · rw [abs_le]
    norm_num at *
    constructor <;> linarith
  · push_cast; ring
  · push_cast; linarith
  · push_cast
    norm_num at *
    linarith
  · intro e he i m hm
    have hi : i < x.length := by
      by_contra hh
      rw [List.getElem?_eq_none (by rw [tab_length]; omega)] at hm
      cases hm
    have hm' : m = smoothAt sigma ext x i := by
      have := tab_getD (f := smoothAt sigma ext x) hi (d := 0)
      rw [List.getD_eq_getElem?_getD, hm] at this
      exact this
    have h0 : sigma ≠ 0 := by rintro rfl; norm_num at h1
    have key : ∀ f : ℕ → ℝ, ∀ g : ℤ → ℝ, (∀ j, j < L → f j = g (c - j)) →
        ∑ j ∈ Finset.Icc ((c : ℤ) - L + 1) c, g j = ∑ j ∈ Finset.range L, f j := by
      intro f g hfg
      refine Finset.sum_nbij' (fun j : ℤ => ((c : ℤ) - j).toNat)
        (fun j : ℕ => (c : ℤ) - j) ?_ ?_ ?_ ?_ ?_
      · intro j hj
        rw [Finset.mem_Icc] at hj
        rw [Finset.mem_range]
        omega
      · intro j hj
        rw [Finset.mem_range] at hj
        rw [Finset.mem_Icc]
        omega
      · intro j hj
        rw [Finset.mem_Icc] at hj
        omega
      · intro j hj
        rw [Finset.mem_range] at hj
        omega
      · intro j hj
        rw [Finset.mem_Icc] at hj
        rw [hfg _ (by omega)]
        congr 1
        omega
    have hwin : ∀ j : ℕ, winExp sigma ext j = bell sigma ((((c : ℤ) - j : ℤ) : ℝ) -
        (c - sigma * ext)) := by
      intro j
      unfold winExp bell
      congr 1
      push_cast
      ring
    unfold BellAverage
    rw [key (winExp sigma ext) (fun j => bell sigma (j - (c - sigma * ext))) (fun j _ => hwin j),
      key (fun j => winExp sigma ext j * x.getD (reflect x.length ((i : ℤ) + c - j)) 0)
        (fun j => bell sigma (j - (c - sigma * ext)) * e (i + j)) ?_, hm']
    · unfold smoothAt
      rw [← hL, Finset.sum_mul, ← hc2]
      apply Finset.sum_congr rfl
      intro j _
      have hs := (winSum_pos h1).ne'
      rw [← hL] at hs
      unfold win
      rw [← hL]
      field_simp
    · intro j hj
      rw [hwin, mirrored_reflect he (by omega) (by omega)]
      congr 3
      omega

/-- If the half width is an integer the window is symmetric around the point. -/
theorem smoothed_centred {x y : List ℝ} {sigma ext : ℝ} {e : ℤ → ℝ} {r : ℕ} (hr : sigma * ext = r)
    (h : Smoothed sigma ext x y) (he : Mirrored x e) :
    ∀ i : ℕ, ∀ m, y[i]? = some m → BellAverage sigma 0 (-r) r e i m := by
  obtain ⟨-, δ, a, b, hδ, hb, ha1, ha2, hav⟩ := h
  intro i m hm
  have := hav e he i m hm
  rw [hr] at hb ha1 ha2
  have hbr : b = r := by
    have h1 : (b : ℝ) - r = δ := by linarith
    rw [abs_le, ← h1] at hδ
    have h2 : ((b - r : ℤ) : ℝ) < 1 := by push_cast; norm_num at hδ; linarith [hδ.2]
    have h3 : (-1 : ℝ) < ((b - r : ℤ) : ℝ) := by push_cast; norm_num at hδ; linarith [hδ.1]
    have h2 : b - r < 1 := by exact_mod_cast h2
    have h3 : -1 < b - (r : ℤ) := by exact_mod_cast h3
    omega
  have hδ0 : δ = 0 := by
    rw [hbr] at hb
    push_cast at hb
    linarith
  have har : a = -r := by
    rw [hδ0, sub_zero] at ha1 ha2
    have h2 : ((a + r : ℤ) : ℝ) < 1 := by push_cast; linarith
    have h3 : (-1 : ℝ) < ((a + r : ℤ) : ℝ) := by push_cast; norm_num at ha1; linarith
    have h2 : a + r < 1 := by exact_mod_cast h2
    have h3 : -1 < a + (r : ℤ) := by exact_mod_cast h3
    omega
  rw [hδ0, har, hbr] at this
  exact this

/-- C155: if the half width `ext_x * sigma` is an integer the window is symmetric around the point. -/
theorem C155_centred {x y : List ℝ} {sigma ext : ℝ} {e : ℤ → ℝ} {r : ℕ} (hr : sigma * ext = r)
    (h : gaussConv x sigma ext = .ok y) (he : Mirrored x e) :
    ∀ i : ℕ, ∀ m, y[i]? = some m → BellAverage sigma 0 (-r) r e i m :=
  smoothed_centred hr (C155_average h) he

/-- Five points, a window of three. -/
example : ∃ y, gaussConv [0, 0, 1, 0, 0] 1 1 = .ok y :=
  (C155_accepts _ _ _).2 ⟨by norm_num, by norm_num⟩

/-- Seven points, a half width of 3/2. -/
example : ∃ y, gaussConv [0, 0, 1, 0, 0, 2, 3] (1 / 2) 3 = .ok y :=
  (C155_accepts _ _ _).2 ⟨by norm_num, by norm_num⟩

/-! ## C156: derivatives -/

theorem points_tab (P : List (ℝ × ℝ)) :
    P.map Prod.fst = tab P.length (fun i => (P.getD i (0, 0)).1) ∧
    P.map Prod.snd = tab P.length (fun i => (P.getD i (0, 0)).2) ∧
    ∀ i p, P[i]? = some p → i < P.length ∧ p = P.getD i (0, 0) := by
  have hg : ∀ i p, P[i]? = some p → i < P.length ∧ p = P.getD i (0, 0) := by
    intro i p hp
    refine ⟨?_, by rw [List.getD_eq_getElem?_getD, hp]; rfl⟩
    by_contra hh
    rw [List.getElem?_eq_none (by omega)] at hp
    cases hp
  refine ⟨?_, ?_, hg⟩
  all_goals
    apply List.ext_getElem (by simp)
    intro i h1 h2
    rw [List.length_map] at h1
    simp [tab, h1]

/-- C156: `slope` of data with as many values as points is accepted exactly if no chord is vertical. -/
theorem C156_accepts (P : List (ℝ × ℝ)) :
    (∃ d, slope (P.map Prod.fst) (P.map Prod.snd) = .ok d) ↔ 2 ≤ P.length ∧
      (∀ i p q, P[i]? = some p → P[i + 2]? = some q → p.1 ≠ q.1) ∧
      (∀ p q, P[0]? = some p → P[1]? = some q → p.1 ≠ q.1) ∧
      ∀ i p q, i + 2 = P.length → P[i]? = some p → P[i + 1]? = some q → p.1 ≠ q.1 := by
  obtain ⟨ex, ey, hg⟩ := points_tab P
  rw [ex, ey]
  set F := fun i => P.getD i (0, 0) with hF
  constructor
  · rintro ⟨d, hd⟩
    obtain ⟨c1, c2, c3, c4⟩ := slope_ok hd
    refine ⟨c1, ?_, ?_, ?_⟩
    · intro i p q hp hq
      rw [(hg i p hp).2, (hg _ q hq).2]
      exact (c2 i (hg _ q hq).1).symm
    · intro p q hp hq
      rw [(hg _ p hp).2, (hg _ q hq).2]
      exact c3.symm
    · intro i p q hi hp hq
      rw [(hg _ p hp).2, (hg _ q hq).2]
      rw [← hi] at c4
      exact c4.symm
  · rintro ⟨c1, c2, c3, c4⟩
    have hs : ∀ i, i < P.length → P[i]? = some (F i) := fun i hi => by
      rw [hF, List.getElem?_eq_getElem hi]
      dsimp only
      rw [List.getD_eq_getElem?_getD, List.getElem?_eq_getElem hi]
      rfl
    refine ⟨_, slope_eq _ _ _ c1 ?_ ?_ ?_⟩
    · intro i hi
      exact (c2 i _ _ (hs i (by omega)) (hs _ hi)).symm
    · exact (c3 _ _ (hs 0 (by omega)) (hs 1 (by omega))).symm
    · have := c4 (P.length - 2) _ _ (by omega) (hs _ (by omega)) (hs _ (by omega))
      rw [show P.length - 2 + 1 = P.length - 1 by omega] at this
      exact this.symm

/-- C156: what `slope` computes. -/
theorem C156_slope {P : List (ℝ × ℝ)} {d : List ℝ} (h : slope (P.map Prod.fst) (P.map Prod.snd) = .ok d) :
    d.length = P.length ∧ ∀ i m, d[i]? = some m → SlopeAt P i m := by
  obtain ⟨ex, ey, hg⟩ := points_tab P
  refine ⟨by rw [slope_length h, List.length_map], ?_⟩
  rw [ex, ey] at h
  obtain ⟨c1, c2, c3, c4⟩ := slope_ok h
  rw [slope_eq _ _ _ c1 c2 c3 c4] at h
  obtain rfl := Except.ok.inj h
  have hs : ∀ i, i < P.length → P[i]? = some (P.getD i (0, 0)) := fun i hi => by
    rw [List.getD_eq_getElem?_getD, List.getElem?_eq_getElem hi]
    rfl
  intro i m hm
  have hi : i < P.length := by
    by_contra hh
    rw [List.getElem?_eq_none (by rw [tab_length]; omega)] at hm
    cases hm
  have hm' := congrArg (fun o => o.getD 0) hm
  rw [← List.getD_eq_getElem?_getD, tab_getD hi, Option.getD_some] at hm'
  subst hm'
  by_cases h1 : i = P.length - 1
  · rw [if_pos h1]
    obtain ⟨j, rfl⟩ : ∃ j, i = j + 1 := ⟨i - 1, by omega⟩
    have e1 : P.length - 1 = j + 1 := by omega
    have e2 : P.length - 2 = j := by omega
    rw [e1, e2]
    exact SlopeAt.last j _ _ (by omega) (hs _ (by omega)) (hs _ (by omega))
  · rw [if_neg h1]
    by_cases h2 : i = 0
    · rw [if_pos h2, h2]
      exact SlopeAt.first _ _ (hs _ (by omega)) (hs _ (by omega))
    · rw [if_neg h2]
      obtain ⟨j, rfl⟩ : ∃ j, i = j + 1 := ⟨i - 1, by omega⟩
      exact SlopeAt.inner j _ _ (hs _ (by omega)) (hs _ (by omega))

/-- There is only one slope at a point. -/
theorem slopeAt_unique {P : List (ℝ × ℝ)} {i : ℕ} {a b : ℝ} (ha : SlopeAt P i a) (hb : SlopeAt P i b) : a = b := by
  have lt : ∀ {i p}, P[i]? = some p → i < P.length := by
    intro i p hp
    by_contra hh
    rw [List.getElem?_eq_none (by omega)] at hp
    cases hp
  cases ha with
  | first p q hp hq =>
    cases hb with
    | first p' q' hp' hq' => rw [hp] at hp'; rw [hq] at hq'; cases hp'; cases hq'; rfl
  | inner i p q hp hq =>
    cases hb with
    | inner _ p' q' hp' hq' => rw [hp] at hp'; rw [hq] at hq'; cases hp'; cases hq'; rfl
    | last _ p' q' hl hp' hq' => have := lt hq; omega
  | last i p q hl hp hq =>
    cases hb with
    | inner _ p' q' hp' hq' => have := lt hq'; omega
    | last _ p' q' hl hp' hq' => rw [hp] at hp'; rw [hq] at hq'; cases hp'; cases hq'; rfl

/-- Three points that are not evenly spaced. -/
example : ∃ d, slope (([(0, 0), (1, 1), (3, 9)] : List (ℝ × ℝ)).map Prod.fst)
    (([(0, 0), (1, 1), (3, 9)] : List (ℝ × ℝ)).map Prod.snd) = .ok d := by
  rw [C156_accepts]
  refine ⟨by simp, ?_, ?_, ?_⟩
  · intro i p q hp hq
    rcases i with _ | i
    · cases hp; cases hq; norm_num
    · simp at hq
  · intro p q hp hq
    cases hp; cases hq; norm_num
  · intro i p q hi hp hq
    obtain rfl : i = 1 := by simp at hi; omega
    cases hp; cases hq; norm_num

/-- C156: what `slope_span_n` with an odd span of at least 3 computes on different points; it needs
`3 * (n - 1) / 2 + 2` of them. -/
theorem C156_span {P : List (ℝ × ℝ)} {k : ℕ} {nz : Bool} {d : List ℝ} (hk : 1 ≤ k) (hx : (P.map Prod.fst).Nodup)
    (h : slopeSpanN (P.map Prod.fst) (P.map Prod.snd) (2 * k + 1) nz = .ok d) :
    3 * k + 2 ≤ P.length ∧ d.length = P.length ∧ ∀ i m, d[i]? = some m →
      ∃ t, SpanAt P k i t ∧ m = if nz = true ∧ t = 0 then 1e-10 else t := by
  obtain ⟨ex, ey, hg⟩ := points_tab P
  have hlen : d.length = P.length := by
    obtain ⟨e, he, rfl⟩ := slopeSpanN_last h
    rw [noZeros_length, he, List.length_map]
  rw [ex, ey] at h
  rw [ex] at hx
  have hinj := tab_nodup hx
  have hN : 3 * k + 2 ≤ P.length := by
    by_contra hh
    exact slopeSpanN_short _ k hk (by omega) _ _ nz d h
  refine ⟨hN, hlen, ?_⟩
  rw [slopeSpanN_eq _ k hk hN _ _ nz hinj] at h
  obtain rfl := Except.ok.inj h
  have hs : ∀ i, i < P.length → P[i]? = some (P.getD i (0, 0)) := fun i hi => by
    rw [List.getD_eq_getElem?_getD, List.getElem?_eq_getElem hi]
    rfl
  have main : ∀ i, i < P.length → SpanAt P k i (quot (fun i => (P.getD i (0, 0)).1) (fun i => (P.getD i (0, 0)).2)
      (spanPts P.length k i).1 (spanPts P.length k i).2) := by
    have inner : ∀ i, k < i → i + k < P.length → SpanAt P k i (quot (fun i => (P.getD i (0, 0)).1)
        (fun i => (P.getD i (0, 0)).2) (i + k) (i - k - 1)) := by
      intro i h1 h2
      obtain ⟨j, rfl⟩ : ∃ j, i = j + (k + 1) := ⟨i - (k + 1), by omega⟩
      have e1 : j + (k + 1) + k = j + (2 * k + 1) := by omega
      have e2 : j + (k + 1) - k - 1 = j := by omega
      rw [e1, e2]
      exact SpanAt.inner j _ _ (hs _ (by omega)) (hs _ (by omega))
    have left : ∀ i, 1 ≤ i → i ≤ k → SpanAt P k i (quot (fun i => (P.getD i (0, 0)).1)
        (fun i => (P.getD i (0, 0)).2) (3 * i + 1) i) := fun i h1 h2 =>
      SpanAt.left i _ _ h1 h2 (hs _ (by omega)) (hs _ (by omega))
    have right : ∀ i, i + 2 ≤ P.length → P.length ≤ i + k → SpanAt P k i (quot (fun i => (P.getD i (0, 0)).1)
        (fun i => (P.getD i (0, 0)).2) i (i - 2 * (P.length - i) - 1)) := by
      intro i h1 h2
      rw [show i - 2 * (P.length - i) - 1 = i - (2 * (P.length - i) + 1) by omega]
      exact SpanAt.right i (P.length - i) _ _ (by omega) (by omega) (by omega) (hs _ (by omega)) (hs _ (by omega))
    intro i hi
    unfold spanPts
    by_cases h0 : i = 0
    · rw [if_pos h0, h0]
      exact SpanAt.first _ (left 1 le_rfl hk)
    · rw [if_neg h0]
      by_cases h1 : i = P.length - 1
      · rw [if_pos h1]
        obtain ⟨j, rfl⟩ : ∃ j, i = j + 1 := ⟨i - 1, by omega⟩
        refine SpanAt.last j _ (by omega) ?_
        by_cases h2 : k = 1
        · rw [if_pos h2]
          have := inner j (by omega) (by omega)
          rwa [show j + k = P.length - 1 by omega, show j - k - 1 = P.length - 4 by omega] at this
        · rw [if_neg h2]
          have := right j (by omega) (by omega)
          have e1 : j - 2 * (P.length - j) - 1 = P.length - 7 := by omega
          have e2 : P.length - 2 = j := by omega
          rw [e1] at this
          rw [e2]
          exact this
      · rw [if_neg h1]
        by_cases h2 : i ≤ k
        · rw [if_pos h2]
          exact left i (by omega) h2
        · rw [if_neg h2]
          by_cases h3 : P.length - k ≤ i
          · rw [if_pos h3]
            exact right i (by omega) (by omega)
          · rw [if_neg h3]
            exact inner i (by omega) (by omega)
  intro i m hm
  have hi : i < P.length := by
    by_contra hh
    rw [List.getElem?_eq_none (by rw [hlen]; omega)] at hm
    cases hm
  refine ⟨_, main i hi, ?_⟩
  unfold noZeros at hm
  by_cases hnz : nz = true
  · rw [if_pos hnz, map_tab] at hm
    have hm' := congrArg (fun o => o.getD 0) hm
    rw [← List.getD_eq_getElem?_getD, tab_getD hi, Option.getD_some] at hm'
    rw [← hm']
    by_cases hz : quot (fun i => (P.getD i (0, 0)).1) (fun i => (P.getD i (0, 0)).2)
      (spanPts P.length k i).1 (spanPts P.length k i).2 = 0
    · rw [if_pos hz, if_pos ⟨hnz, hz⟩]; norm_num
    · rw [if_neg hz, if_neg (fun h => hz h.2)]
  · rw [if_neg hnz] at hm
    have hm' := congrArg (fun o => o.getD 0) hm
    rw [← List.getD_eq_getElem?_getD, tab_getD hi, Option.getD_some] at hm'
    rw [← hm', if_neg (fun h => hnz h.1)]

/-- C156: away from the ends, `slope_span_n` is late by half a step: on evenly spaced samples of a parabola
it returns the derivative half a step before the point, not at the point. -/
theorem C156_late {N k : ℕ} {x0 s p q r : ℝ} {d : List ℝ} (hk : 1 ≤ k) (hs : s ≠ 0)
    (h : slopeSpanN ((List.range N).map fun t : ℕ => x0 + s * t)
      ((List.range N).map fun t : ℕ => p * (x0 + s * t) ^ 2 + q * (x0 + s * t) + r) (2 * k + 1) false = .ok d) :
    ∀ i m, k < i → i + k < N → d[i]? = some m → m = 2 * p * (x0 + s * i - s / 2) + q := by
  have hinj : ∀ i j : ℕ, i < N → j < N → x0 + s * (i : ℝ) = x0 + s * j → i = j := by
    intro i j _ _ he
    have : s * (i : ℝ) = s * j := by linarith
    exact_mod_cast mul_left_cancel₀ hs this
  have ex : ((List.range N).map fun t : ℕ => x0 + s * (t : ℝ)) = tab N fun t => x0 + s * (t : ℝ) := rfl
  have ey : ((List.range N).map fun t : ℕ => p * (x0 + s * (t : ℝ)) ^ 2 + q * (x0 + s * (t : ℝ)) + r) =
      tab N fun t => p * (x0 + s * (t : ℝ)) ^ 2 + q * (x0 + s * (t : ℝ)) + r := rfl
  rw [ex, ey] at h
  have hN : 3 * k + 2 ≤ N := by
    by_contra hh
    exact slopeSpanN_short N k hk (by omega) (fun t => x0 + s * (t : ℝ))
      (fun t => p * (x0 + s * (t : ℝ)) ^ 2 + q * (x0 + s * (t : ℝ)) + r) false d h
  have h2 := slopeSpanN_eq N k hk hN (fun t => x0 + s * (t : ℝ))
    (fun t => p * (x0 + s * (t : ℝ)) ^ 2 + q * (x0 + s * (t : ℝ)) + r) false hinj
  obtain rfl := Except.ok.inj (h.symm.trans h2)
  intro i m h1 h3 hm
  unfold noZeros at hm
  rw [if_neg (by simp)] at hm
  have hm' := congrArg (fun o => o.getD 0) hm
  rw [← List.getD_eq_getElem?_getD, tab_getD (by omega), Option.getD_some] at hm'
  rw [← hm']
  unfold spanPts
  rw [if_neg (by omega), if_neg (by omega), if_neg (by omega), if_neg (by omega)]
  unfold quot
  dsimp only
  obtain ⟨j, rfl⟩ : ∃ j, i = j + (k + 1) := ⟨i - (k + 1), by omega⟩
  rw [show j + (k + 1) - k - 1 = j by omega]
  have hd : x0 + s * ((j + (k + 1) + k : ℕ) : ℝ) - (x0 + s * (j : ℝ)) ≠ 0 := by
    rw [show x0 + s * ((j + (k + 1) + k : ℕ) : ℝ) - (x0 + s * (j : ℝ)) = s * (2 * k + 1) by push_cast; ring]
    exact mul_ne_zero hs (by positivity)
  rw [div_eq_iff hd]
  push_cast
  ring

/-- Twelve samples of a parabola, a span of seven. -/
example : ∃ d, slopeSpanN ((List.range 12).map fun t : ℕ => (0 : ℝ) + 1 * t)
    ((List.range 12).map fun t : ℕ => (1 : ℝ) * (0 + 1 * t) ^ 2 + 0 * (0 + 1 * t) + 0) (2 * (3 : ℕ) + 1) false = .ok d :=
  ⟨_, slopeSpanN_eq 12 3 (by norm_num) (by norm_num) (fun t => (0 : ℝ) + 1 * (t : ℝ))
    (fun t => (1 : ℝ) * (0 + 1 * (t : ℝ)) ^ 2 + 0 * (0 + 1 * (t : ℝ)) + 0) false (by
      intro i j _ _ he
      have : (i : ℝ) = j := by linarith
      exact_mod_cast this)⟩

end QMix.Props
