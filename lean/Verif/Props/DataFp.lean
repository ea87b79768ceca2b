import Verif.Model.DataFp
import Verif.Lemmas.CircuitFp
import Verif.Lemmas.Parametric
import Verif.Lemmas.MathFn
import Verif.Props.Figures
import Verif.Props.MathFn

/-!
# Resampling and numerical derivatives in floating-point arithmetic (C191)
-/

namespace QMix.DataFp

open QMix.Np QMix.CctFp QMix.Rel QMix.Rnd QMix.IvData

variable {u : ℝ}

/-! ## Related arrays -/

section
variable {α β γ α' β' γ' : Type} {R : α → α' → Prop} {S : β → β' → Prop} {T : γ → γ' → Prop}

theorem zipWith_rel {f : α → β → γ} {g : α' → β' → γ'} (hfg : ∀ x x' y y', R x x' → S y y' → T (f x y) (g x' y')) :
    ∀ {a : List α} {a' : List α'} {b : List β} {b' : List β'}, List.Forall₂ R a a' → List.Forall₂ S b b' →
      List.Forall₂ T (List.zipWith f a b) (List.zipWith g a' b')
  | _, _, _, _, .nil, _ => by simp
  | _, _, _, _, .cons _ _, .nil => by simp
  | _, _, _, _, .cons h1 t1, .cons h2 t2 => .cons (hfg _ _ _ _ h1 h2) (zipWith_rel hfg t1 t2)

theorem map_rel {f : α → β} {g : α' → β'} (h : ∀ x x', R x x' → S (f x) (g x')) {a : List α} {a' : List α'}
    (ha : List.Forall₂ R a a') : List.Forall₂ S (a.map f) (a'.map g) := by
  rw [List.forall₂_map_left_iff, List.forall₂_map_right_iff]
  exact ha.imp h

theorem zip_rel {f : α → β → γ} {g : α' → β' → γ'} (hfg : ∀ x x' y y', R x x' → S y y' → T (f x y) (g x' y'))
    {a : List α} {a' : List α'} {b : List β} {b' : List β'} (ha : List.Forall₂ R a a') (hb : List.Forall₂ S b b') :
    PyRel (List.Forall₂ T) (zip f a b) (zip g a' b') := by
  unfold zip
  rw [ha.length_eq, hb.length_eq]
  split_ifs with h
  · exact zipWith_rel hfg ha hb
  · match a, a', b, b', ha, hb with
    | [x], [x'], b, b', .cons hx .nil, hb => exact map_rel (fun y y' hy => hfg x x' y y' hx hy) hb
    | [], [], [y], [y'], _, .cons hy .nil => exact List.Forall₂.nil
    | x :: z :: l, x' :: z' :: l', [y], [y'], ha, .cons hy .nil => exact map_rel (fun t t' ht => hfg t t' y y' ht hy) ha
    | [], [], [], [], _, _ => exact rfl
    | [], [], _ :: _ :: _, _ :: _ :: _, _, _ => exact rfl
    | _ :: _ :: _, _ :: _ :: _, [], [], _, _ => exact rfl
    | _ :: _ :: _, _ :: _ :: _, _ :: _ :: _, _ :: _ :: _, _, _ => exact rfl

theorem slice_rel {a : List α} {a' : List α'} (ha : List.Forall₂ R a a') (lo hi : Option ℤ) :
    List.Forall₂ R (slice a lo hi) (slice a' lo hi) := by
  unfold slice
  rw [ha.length_eq]
  exact List.forall₂_drop _ (List.forall₂_take _ ha)

theorem replicate_rel (n : ℕ) {x : α} {x' : α'} (h : R x x') : List.Forall₂ R (List.replicate n x) (List.replicate n x') := by
  induction n with
  | zero => exact .nil
  | succ n ih => exact .cons h ih

theorem append_rel {a b : List α} {a' b' : List α'} (ha : List.Forall₂ R a a') (hb : List.Forall₂ R b b') :
    List.Forall₂ R (a ++ b) (a' ++ b') := List.rel_append ha hb

theorem setSlice_rel {a v : List α} {a' v' : List α'} (ha : List.Forall₂ R a a') (hv : List.Forall₂ R v v')
    (lo hi : Option ℤ) : PyRel (List.Forall₂ R) (setSlice a lo hi v) (setSlice a' lo hi v') := by
  unfold setSlice
  dsimp only
  rw [ha.length_eq, hv.length_eq]
  have t := fun n => List.forall₂_take n ha
  have d := fun n => List.forall₂_drop n ha
  split_ifs with h
  · exact append_rel (append_rel (t _) hv) (d _)
  · match v, v', hv with
    | [], [], _ => exact rfl
    | [x], [x'], .cons hx .nil => exact append_rel (append_rel (t _) (replicate_rel _ hx)) (d _)
    | _ :: _ :: _, _ :: _ :: _, _ => exact rfl

end

/-! ## Derivatives -/

section
variable (A : Fp u) (h0 : 0 ≤ u) (h1 : u < 1)
include h0 h1

theorem same_rel (a : List ℝ) : List.Forall₂ (Rel u 0) a a := List.forall₂_same.2 fun x _ => Rel.refl x

theorem sub_rel (a b : List ℝ) : PyRel (List.Forall₂ (Rel u 1)) (sub A a b) (zip (· - ·) a b) := by
  refine zip_rel (R := Eq) (S := Eq) ?_ (List.forall₂_eq_eq_eq ▸ rfl) (List.forall₂_eq_eq_eq ▸ rfl)
  rintro x _ y _ rfl rfl
  exact rnd_rel A h0 h1 _

theorem fdiv_rel {a a' b b' : ℝ} {n m : ℕ} (ha : Rel u n a a') (hb : Rel u m b b') :
    PyRel (Rel u (n + m + 1)) (fdiv A a b) (Np.fdiv a' b') := by
  unfold fdiv Np.fdiv
  by_cases h : b' = 0
  · have hb0 : b = 0 := by
      by_contra hne
      exact (hb.sign h1).2.2.2 hne h
    rw [if_pos h, if_pos hb0]
    exact rfl
  · rw [if_neg h, if_neg ((hb.sign h1).2.2.1 h)]
    exact rnd_step A h0 h1 (ha.div h1 hb)

theorem div_rel {a a' b b' : List ℝ} {n m : ℕ} (ha : List.Forall₂ (Rel u n) a a') (hb : List.Forall₂ (Rel u m) b b') :
    PyRel (List.Forall₂ (Rel u (n + m + 1))) (div A a b) (Np.div a' b') := by
  unfold div Np.div
  have h : (0 : ℝ) ∈ b ↔ (0 : ℝ) ∈ b' := by
    clear ha
    induction hb with
    | nil => simp
    | @cons y y' l l' hy _ ih =>
      rw [List.mem_cons, List.mem_cons, ih]
      have : (0 : ℝ) = y ↔ (0 : ℝ) = y' := by
        constructor
        · intro h
          by_contra hne
          exact (hy.sign h1).2.2.1 (Ne.symm hne) h.symm
        · intro h
          by_contra hne
          exact (hy.sign h1).2.2.2 (Ne.symm hne) h.symm
      rw [this]
  by_cases hz : (0 : ℝ) ∈ b'
  · rw [if_pos hz, if_pos (h.2 hz)]
    exact rfl
  · rw [if_neg hz, if_neg fun hc => hz (h.1 hc)]
    exact zip_rel (fun x x' y y' hx hy => rnd_step A h0 h1 (hx.div h1 hy)) ha hb

theorem get_same (a : List ℝ) (k : ℤ) : PyRel Eq (pyGet a k) (pyGet a k) :=
  PyRel.get (List.forall₂_eq_eq_eq ▸ rfl) k

theorem zero_rel (n : ℕ) : Rel u n (0 : ℝ) 0 := (Rel.refl 0).mono h0 h1 (Nat.zero_le n)

theorem slope_rel (x y : List ℝ) : PyRel (List.Forall₂ (Rel u 3)) (slope A x y) (MathFn.slope x y) := by
  unfold slope MathFn.slope
  dsimp only
  refine (sub_rel A h0 h1 _ _).bind fun rise rise' hr => (sub_rel A h0 h1 _ _).bind fun run run' hn =>
    (div_rel A h0 h1 hr hn).bind fun q q' hq =>
    (setSlice_rel (replicate_rel _ (zero_rel h0 h1 3)) hq _ _).bind fun der der' hd => ?_
  refine (get_same h0 h1 y 1).bind ?_
  rintro y1 _ rfl
  refine (get_same h0 h1 y 0).bind ?_
  rintro y0 _ rfl
  refine (get_same h0 h1 x 1).bind ?_
  rintro x1 _ rfl
  refine (get_same h0 h1 x 0).bind ?_
  rintro x0 _ rfl
  refine (fdiv_rel A h0 h1 (rnd_rel A h0 h1 _) (rnd_rel A h0 h1 _)).bind fun d0 d0' hd0 =>
    (PyRel.set hd 0 hd0).bind fun der1 der1' hd1 => ?_
  refine (get_same h0 h1 y (-1)).bind ?_
  rintro ya _ rfl
  refine (get_same h0 h1 y (-2)).bind ?_
  rintro yb _ rfl
  refine (get_same h0 h1 x (-1)).bind ?_
  rintro xa _ rfl
  refine (get_same h0 h1 x (-2)).bind ?_
  rintro xb _ rfl
  exact (fdiv_rel A h0 h1 (rnd_rel A h0 h1 _) (rnd_rel A h0 h1 _)).bind fun d1 d1' hd1' => PyRel.set hd1 (-1) hd1'

theorem spanStep_rel (x y : List ℝ) (k : ℤ) {der der' : List ℝ} (hd : List.Forall₂ (Rel u 3) der der') :
    PyRel (List.Forall₂ (Rel u 3)) (spanStep A x y der k) (MathFn.spanStep x y der' k) := by
  unfold spanStep MathFn.spanStep spanDiff MathFn.spanDiff
  exact (sub_rel A h0 h1 _ _).bind fun rise rise' hr => (sub_rel A h0 h1 _ _).bind fun run run' hn =>
    (PyRel.get hr k).bind fun a a' ha => (PyRel.get hn k).bind fun b b' hb =>
    (fdiv_rel A h0 h1 ha hb).bind fun q q' hq => (PyRel.set hd k hq).bind fun der1 der1' hd1 =>
    (PyRel.get hr (-k)).bind fun c c' hc => (PyRel.get hn (-k)).bind fun d d' hdd =>
    (fdiv_rel A h0 h1 hc hdd).bind fun p p' hp => PyRel.set hd1 (-k) hp

theorem noZeros_rel (flag : Bool) {der der' : List ℝ} (hd : List.Forall₂ (Rel u 3) der der') :
    List.Forall₂ (Rel u 3) (noZeros A flag der) (MathFn.noZeros flag der') := by
  unfold noZeros MathFn.noZeros
  cases flag with
  | false => exact hd
  | true =>
    refine map_rel (fun x x' hx => ?_) hd
    by_cases h : x' = 0
    · have hx0 : x = 0 := by
        by_contra hne
        exact (hx.sign h1).2.2.2 hne h
      rw [if_pos h, if_pos hx0]
      exact (rnd_rel A h0 h1 _).mono h0 h1 (by norm_num)
    · rw [if_neg h, if_neg ((hx.sign h1).2.2.1 h)]
      exact hx

theorem slopeSpanN_rel (x y : List ℝ) (n : ℤ) (flag : Bool) :
    PyRel (List.Forall₂ (Rel u 3)) (slopeSpanN A x y n flag) (MathFn.slopeSpanN x y n flag) := by
  unfold slopeSpanN MathFn.slopeSpanN
  have hp : PyRel (fun _ _ : Unit => True) (pyAssert (n % 2 = 1)) (pyAssert (n % 2 = 1)) := by
    by_cases h : n % 2 = 1 <;> simp [pyAssert, h, PyRel]
  refine hp.bind fun _ _ _ => ?_
  dsimp only
  unfold spanDiff MathFn.spanDiff
  exact (sub_rel A h0 h1 _ _).bind fun rise rise' hr => (sub_rel A h0 h1 _ _).bind fun run run' hn =>
    (div_rel A h0 h1 hr hn).bind fun q q' hq =>
    (setSlice_rel (replicate_rel _ (zero_rel h0 h1 3)) hq _ _).bind fun der der' hd =>
    (PyRel.for hd fun k _ a b hab => spanStep_rel A h0 h1 x y k hab).bind fun der1 der1' hd1 =>
    (PyRel.get hd1 1).bind fun a a' ha => (PyRel.set hd1 0 ha).bind fun der2 der2' hd2 =>
    (PyRel.get hd2 (-2)).bind fun b b' hb => (PyRel.set hd2 (-1) hb).bind fun der3 der3' hd3 =>
    noZeros_rel A h0 h1 flag hd3

end

/-- Two lists of numbers that agree to a relative error of `4 u` (so that their signs are the same). -/
def Agree (u : ℝ) (a b : List ℝ) : Prop :=
  a.length = b.length ∧ ∀ i, |a.getD i 0 - b.getD i 0| ≤ 4 * u * |b.getD i 0|

theorem agree_of {a b : List ℝ} (h0 : 0 ≤ u) (hu : 12 * u ≤ 1) (h : List.Forall₂ (Rel u 3) a b) : Agree u a b := by
  refine ⟨h.length_eq, fun i => ?_⟩
  rcases lt_or_ge i a.length with hi | hi
  · have hi' : i < b.length := h.length_eq ▸ hi
    have := (List.forall₂_iff_get.1 h).2 i hi hi'
    rw [show a.getD i 0 = a.get ⟨i, hi⟩ by simp [List.getD, hi], show b.getD i 0 = b.get ⟨i, hi'⟩ by simp [List.getD, hi']]
    have h3 := this.abs_sub_le (by linarith) h0
    have h4 := inv_pow_le (n := 3) h0 (by push_cast; linarith)
    push_cast at h4
    refine h3.trans (mul_le_mul_of_nonneg_right (by linarith) (abs_nonneg _))
  · have hi' : b.length ≤ i := h.length_eq ▸ hi
    have e1 : a.getD i 0 = 0 := by simp [List.getD, hi]
    have e2 : b.getD i 0 = 0 := by simp [List.getD, hi']
    rw [e1, e2]
    simp

/-- C191: in floating-point arithmetic `slope` raises the same exceptions as with exact numbers, and otherwise all its values are
right to a relative error of 4 units of rounding. -/
theorem C191_slope (A : Fp u) (h0 : 0 ≤ u) (hu : 12 * u ≤ 1) (x y : List ℝ) :
    (∀ e, slope A x y = .error e ↔ MathFn.slope x y = .error e) ∧
    ∀ d, MathFn.slope x y = .ok d → ∃ d', slope A x y = .ok d' ∧ Agree u d' d := by
  have h := slope_rel A h0 (by linarith) x y
  constructor
  · intro e
    match hs : slope A x y, hm : MathFn.slope x y, h with
    | .ok a, .ok b, _ => simp
    | .error a, .error b, h =>
      have h : a = b := h
      rw [h]
  · intro d hd
    obtain ⟨d', h1, h2⟩ := h.of_ok hd
    exact ⟨d', h1, agree_of h0 hu h2⟩

/-- C191: the same for `slope_span_n`, for every span, with and without the replacement of zeros. -/
theorem C191_slope_span (A : Fp u) (h0 : 0 ≤ u) (hu : 12 * u ≤ 1) (x y : List ℝ) (n : ℤ) (nozeros : Bool) :
    (∀ e, slopeSpanN A x y n nozeros = .error e ↔ MathFn.slopeSpanN x y n nozeros = .error e) ∧
    ∀ d, MathFn.slopeSpanN x y n nozeros = .ok d → ∃ d', slopeSpanN A x y n nozeros = .ok d' ∧ Agree u d' d := by
  have h := slopeSpanN_rel A h0 (by linarith) x y n nozeros
  constructor
  · intro e
    match hs : slopeSpanN A x y n nozeros, hm : MathFn.slopeSpanN x y n nozeros, h with
    | .ok a, .ok b, _ => simp
    | .error a, .error b, h =>
      have h : a = b := h
      rw [h]
  · intro d hd
    obtain ⟨d', h1, h2⟩ := h.of_ok hd
    exact ⟨d', h1, agree_of h0 hu h2⟩

/-! ## Resampling -/

theorem interp_skip (A : Fp u) (p q : ℝ × ℝ) (L : List (ℝ × ℝ)) {x : ℝ} (h : ∃ e ∈ q :: L, e.1 ≤ x) :
    npInterp A ((p :: q :: L).map Prod.fst) ((p :: q :: L).map Prod.snd) x
      = npInterp A ((q :: L).map Prod.fst) ((q :: L).map Prod.snd) x := by
  simp only [List.map_cons]
  conv_lhs => unfold npInterp
  rw [if_pos]
  obtain ⟨e, he, hx⟩ := h
  exact ⟨e.1, by rw [← List.map_cons]; exact List.mem_map_of_mem he, hx⟩

theorem interp_drop (A : Fp u) {x : ℝ} : ∀ (pre : List (ℝ × ℝ)) {a : ℝ × ℝ} {post : List (ℝ × ℝ)}, a.1 ≤ x →
    npInterp A ((pre ++ a :: post).map Prod.fst) ((pre ++ a :: post).map Prod.snd) x
      = npInterp A ((a :: post).map Prod.fst) ((a :: post).map Prod.snd) x
  | [], _, _, _ => rfl
  | [p], a, post, h => interp_skip A p a post ⟨a, by simp, h⟩
  | p :: q :: pre, a, post, h => by
    rw [← interp_drop A (q :: pre) h]
    exact interp_skip A p q (pre ++ a :: post) ⟨a, by simp, h⟩

theorem interp_at (A : Fp u) {L : List (ℝ × ℝ)} (hL : Incr L) {p : ℝ × ℝ} (hp : p ∈ L) :
    npInterp A (L.map Prod.fst) (L.map Prod.snd) p.1 = p.2 := by
  obtain ⟨pre, post, rfl⟩ := List.append_of_mem hp
  rw [interp_drop A pre le_rfl]
  match post with
  | [] => rfl
  | b :: post =>
    have hb : ∀ c ∈ b :: post, p.1 < c.1 := (List.pairwise_cons.1 (List.pairwise_append.1 hL).2.1).1
    simp only [List.map_cons]
    unfold npInterp
    rw [if_neg, if_neg (lt_irrefl _), if_pos rfl]
    rintro ⟨c, hc, hle⟩
    rw [← List.map_cons (f := Prod.fst)] at hc
    obtain ⟨e, he, rfl⟩ := List.mem_map.1 hc
    linarith [hb e he]

theorem interp_inside (A : Fp u) {pre post : List (ℝ × ℝ)} {a b : ℝ × ℝ} (hL : Incr (pre ++ a :: b :: post)) {x : ℝ}
    (h1 : a.1 < x) (h2 : x < b.1) :
    npInterp A ((pre ++ a :: b :: post).map Prod.fst) ((pre ++ a :: b :: post).map Prod.snd) x
      = A.rnd (A.rnd (A.rnd (A.rnd (b.2 - a.2) / A.rnd (b.1 - a.1)) * A.rnd (x - a.1)) + a.2) := by
  rw [interp_drop A pre h1.le]
  have hb : ∀ c ∈ post, b.1 < c.1 :=
    (List.pairwise_cons.1 (List.pairwise_cons.1 (List.pairwise_append.1 hL).2.1).2).1
  simp only [List.map_cons]
  unfold npInterp
  rw [if_neg, if_neg h1.le.not_gt, if_neg h1.ne']
  rintro ⟨c, hc, hle⟩
  rw [← List.map_cons (f := Prod.fst)] at hc
  obtain ⟨e, he, rfl⟩ := List.mem_map.1 hc
  rcases List.mem_cons.1 he with rfl | he
  · linarith
  · linarith [hb e he]

/-- C191: `np.interp` returns the measured values at the measured points, and the first and last value outside. -/
theorem C191_interp_exact (A : Fp u) {L : List (ℝ × ℝ)} (hL : Incr L) :
    (∀ p ∈ L, npInterp A (L.map Prod.fst) (L.map Prod.snd) p.1 = p.2) ∧
    (∀ x, ∀ p ∈ L.head?, x < p.1 → npInterp A (L.map Prod.fst) (L.map Prod.snd) x = p.2) ∧
    ∀ x, ∀ p ∈ L.getLast?, p.1 < x → npInterp A (L.map Prod.fst) (L.map Prod.snd) x = p.2 := by
  refine ⟨fun p hp => interp_at A hL hp, ?_, ?_⟩
  · intro x p hp hx
    match L, hp with
    | [q], hp =>
      cases hp
      rfl
    | q :: b :: l, hp =>
      cases hp
      have hb : ∀ c ∈ b :: l, p.1 < c.1 := (List.pairwise_cons.1 hL).1
      simp only [List.map_cons]
      unfold npInterp
      rw [if_neg, if_pos hx]
      rintro ⟨c, hc, hle⟩
      rw [← List.map_cons (f := Prod.fst)] at hc
      obtain ⟨e, he, rfl⟩ := List.mem_map.1 hc
      linarith [hb e he]
  · intro x p hp hx
    obtain ⟨l, rfl⟩ : ∃ l, L = l ++ [p] := ⟨L.dropLast, (List.dropLast_append_getLast? p hp).symm⟩
    rw [interp_drop A l hx.le]
    rfl

/-- C191: between two neighbouring measured points the value differs from that on the straight line by at most 7 units of rounding of the
difference of the neighbours plus one unit of the larger of them. -/
theorem C191_interp (A : Fp u) (h0 : 0 ≤ u) (hu : 30 * u ≤ 1) {L : List (ℝ × ℝ)} (hL : Incr L) {a b : ℝ × ℝ}
    (hab : [a, b] <:+: L) {t x y : ℝ} (ht0 : 0 ≤ t) (ht1 : t ≤ 1) (hx : x = (1 - t) * a.1 + t * b.1)
    (hy : y = (1 - t) * a.2 + t * b.2) :
    |npInterp A (L.map Prod.fst) (L.map Prod.snd) x - y| ≤ 7 * u * |b.2 - a.2| + u * max |a.2| |b.2| := by
  have hmax : 0 ≤ u * max |a.2| |b.2| := mul_nonneg h0 (le_max_of_le_left (abs_nonneg _))
  have hdif : 0 ≤ 7 * u * |b.2 - a.2| := by positivity
  have h1 : u < 1 := by linarith
  obtain ⟨pre, post, e⟩ := hab
  rw [List.append_assoc] at e
  change pre ++ a :: b :: post = L at e
  subst e
  have hlt : a.1 < b.1 := (List.pairwise_cons.1 (List.pairwise_append.1 hL).2.1).1 b (by simp)
  rcases ht0.eq_or_lt with rfl | ht0
  · have ex : x = a.1 := by rw [hx]; ring
    have ey : y = a.2 := by rw [hy]; ring
    rw [ex, ey, interp_at A hL (p := a) (by simp), sub_self, abs_zero]
    linarith
  rcases ht1.eq_or_lt with rfl | ht1
  · have ex : x = b.1 := by rw [hx]; ring
    have ey : y = b.2 := by rw [hy]; ring
    rw [ex, ey, interp_at A hL (p := b) (by simp), sub_self, abs_zero]
    linarith
  have hd : 0 < b.1 - a.1 := by linarith
  have x1 : a.1 < x := by rw [hx]; nlinarith
  have x2 : x < b.1 := by rw [hx]; nlinarith
  rw [interp_inside A hL x1 x2]
  set P := A.rnd (A.rnd (A.rnd (b.2 - a.2) / A.rnd (b.1 - a.1)) * A.rnd (x - a.1)) with hP
  have rP : Rel u 5 P (t * (b.2 - a.2)) := by
    have e : t * (b.2 - a.2) = (b.2 - a.2) / (b.1 - a.1) * (x - a.1) := by
      rw [hx]
      field_simp
      ring
    rw [e]
    exact rnd_step A h0 h1 ((rnd_step A h0 h1 ((rnd_rel A h0 h1 _).div h1 (rnd_rel A h0 h1 _))).mul h1
      (rnd_rel A h0 h1 _))
  have q1 := rP.abs_sub_le h1 h0
  have q2 := inv_pow_le (n := 5) h0 (by push_cast; linarith)
  push_cast at q2
  have q3 : |t * (b.2 - a.2)| ≤ |b.2 - a.2| := by
    rw [abs_mul, abs_of_pos ht0]
    exact mul_le_of_le_one_left (abs_nonneg _) ht1.le
  have q4 : |P - t * (b.2 - a.2)| ≤ 6 * u * |b.2 - a.2| :=
    q1.trans ((mul_le_mul_of_nonneg_right (by linarith) (abs_nonneg _)).trans
      (mul_le_mul_of_nonneg_left q3 (by positivity)))
  have ey : P + a.2 - y = P - t * (b.2 - a.2) := by rw [hy]; ring
  have q5 := A.rnd_le (P + a.2)
  have q6 : |y| ≤ max |a.2| |b.2| := by
    rw [hy]
    refine (abs_add_le _ _).trans ?_
    rw [abs_mul, abs_mul, abs_of_pos ht0, abs_of_pos (by linarith : 0 < 1 - t)]
    have := mul_le_mul_of_nonneg_left (le_max_left |a.2| |b.2|) (by linarith : 0 ≤ 1 - t)
    have := mul_le_mul_of_nonneg_left (le_max_right |a.2| |b.2|) ht0.le
    linarith
  have q7 : |P + a.2| ≤ max |a.2| |b.2| + 6 * u * |b.2 - a.2| := by
    have : P + a.2 = y + (P - t * (b.2 - a.2)) := by rw [← ey]; ring
    rw [this]
    exact (abs_add_le _ _).trans (add_le_add q6 q4)
  have q8 : u * |P + a.2| ≤ u * max |a.2| |b.2| + u * |b.2 - a.2| := by
    refine (mul_le_mul_of_nonneg_left q7 h0).trans ?_
    have : 6 * u * |b.2 - a.2| ≤ |b.2 - a.2| := mul_le_of_le_one_left (abs_nonneg _) (by linarith)
    nlinarith
  calc |A.rnd (P + a.2) - y| ≤ |A.rnd (P + a.2) - (P + a.2)| + |P + a.2 - y| := abs_sub_le _ _ _
    _ ≤ u * |P + a.2| + 6 * u * |b.2 - a.2| := by rw [ey]; exact add_le_add q5 q4
    _ ≤ _ := by linarith

/-- C191 for a straight line measured at different voltages: all slopes are those of the line, to a relative error of 4 units of
rounding. -/
theorem C191_line (A : Fp u) (h0 : 0 ≤ u) (hu : 12 * u ≤ 1) (x : List ℝ) (hx : x.Nodup) (h2 : 2 ≤ x.length) (m c : ℝ) :
    ∃ d, slope A x (x.map fun t => m * t + c) = .ok d ∧ d.length = x.length ∧
      ∀ s ∈ d, |s - m| ≤ 4 * u * |m| := by
  obtain ⟨d, hd, hl, hv⟩ := (C191_slope A h0 hu x (x.map fun t => m * t + c)).2 _ (Props.C48_line x hx h2 m c)
  rw [List.length_map] at hl
  refine ⟨d, hd, hl, fun s hs => ?_⟩
  obtain ⟨i, hi, rfl⟩ := List.getElem_of_mem hs
  have := hv i
  have e1 : d.getD i 0 = d[i] := by simp [List.getD, hi]
  have e2 : (x.map fun _ => m).getD i 0 = m := by
    have : i < x.length := hl ▸ hi
    simp [List.getD, this]
  rwa [e1, e2] at this

/-- Double precision: a line and a sweep with a corner meet the hypotheses. -/
example (A : Fp (1 / 2 ^ 53)) : ∃ d, slope A [0, 1, 3] [5, 7, 11] = .ok d ∧ ∀ s ∈ d, |s - 2| ≤ 8 / 2 ^ 53 := by
  obtain ⟨d, h1, -, h2⟩ := C191_line A (by positivity) (by norm_num) [0, 1, 3] (by norm_num) (by simp) 2 5
  refine ⟨d, ?_, fun s hs => (h2 s hs).trans (by norm_num)⟩
  rw [← h1]
  norm_num

example (A : Fp (1 / 2 ^ 53)) : |npInterp A [0, 1, 3] [0, 2, 5] 2 - 7 / 2| ≤ 26 / 2 ^ 53 := by
  have := C191_interp A (by positivity) (by norm_num) (L := [(0, 0), (1, 2), (3, 5)]) (by unfold Incr; norm_num) (a := (1, 2))
    (b := (3, 5)) ⟨[(0, 0)], [], rfl⟩ (t := 1 / 2) (x := 2) (y := 7 / 2) (by norm_num) (by norm_num) (by norm_num) (by norm_num)
  refine this.trans ?_
  norm_num

example (A : Fp (1 / 2 ^ 53)) : ∃ d, slopeSpanN A ([0, 1, 2, 4, 5].map id) ([0, 1, 2, 4, 5].map fun t => 3 * t + 1) 3 true = .ok d ∧
    ∀ i < 5, |d.getD i 0 - 3| ≤ 12 / 2 ^ 53 := by
  have h := (Props.C49_line_partial [0, 1, 2, 4, 5] (by norm_num) 1 le_rfl 3 1 true _).2 ⟨by simp, rfl⟩
  have h : MathFn.slopeSpanN [0, 1, 2, 4, 5] ([0, 1, 2, 4, 5].map fun t => 3 * t + 1) (2 * (1 : ℕ) + 1) true = .ok [3, 3, 3, 3, 3] := by
    rw [h]
    norm_num
  obtain ⟨d, h1, -, h2⟩ := (C191_slope_span A (by positivity) (by norm_num) _ _ _ true).2 _ h
  refine ⟨d, by rw [List.map_id]; exact h1, fun i hi => ?_⟩
  have := h2 i
  have e : ([3, 3, 3, 3, 3] : List ℝ).getD i 0 = 3 := by
    interval_cases i <;> norm_num
  rw [e] at this
  refine this.trans ?_
  norm_num

end QMix.DataFp
