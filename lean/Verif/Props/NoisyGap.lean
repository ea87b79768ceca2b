import Verif.Props.GapVoltage
import Verif.Props.NoisyFit

/-!
# The gap voltage of a curve with errors
-/

namespace QMix.Spec

/-- `p` is a point of `P` where the smoothed slope is at most `μ` below its largest value (see `Steepest`). -/
def NearSteepest (P : List (ℝ × ℝ)) (s μ : ℝ) (p : ℝ × ℝ) : Prop :=
  ∃ (d y : List ℝ) (k : ℕ) (m : ℝ), d.length = P.length ∧ (∀ j t, d[j]? = some t → SlopeAt P j t) ∧
    Smoothed s 3 d y ∧ P[k]? = some p ∧ y[k]? = some m ∧ ∀ t ∈ y, t ≤ m + μ

end QMix.Spec

namespace QMix.Props

open QMix.Np QMix.MathFn QMix.Spec QMix.IvData

/-! ## Lemmas -/

/-- Smoothing does not increase the distance of two lists. -/
theorem smoothAt_close {s w η : ℝ} {x x' : List ℝ} (hl : x'.length = x.length) (h1 : 1 ≤ s * w)
    (hx : ∀ j, |x.getD j 0 - x'.getD j 0| ≤ η) (i : ℕ) : |smoothAt s w x i - smoothAt s w x' i| ≤ η := by
  unfold smoothAt
  rw [hl, ← Finset.sum_sub_distrib]
  set n := winLen s w with hn
  have hn3 : 3 ≤ n := winLen_ge h1
  have hpos : 0 < ∑ k ∈ Finset.range n, winExp s w k :=
    Finset.sum_pos (fun j _ => winExp_pos s w j) ⟨0, Finset.mem_range.2 (by omega)⟩
  have hw : ∀ j, 0 ≤ win s w j := fun j => div_nonneg (winExp_pos s w j).le hpos.le
  have hsum : ∑ j ∈ Finset.range n, win s w j = 1 := by
    unfold win
    rw [← Finset.sum_div, ← hn, div_self hpos.ne']
  refine (Finset.abs_sum_le_sum_abs _ _).trans ?_
  calc _ ≤ ∑ j ∈ Finset.range n, win s w j * η := by
        apply Finset.sum_le_sum
        intro j _
        rw [← mul_sub, abs_mul, abs_of_nonneg (hw j)]
        exact mul_le_mul_of_nonneg_left (hx _) (hw j)
    _ = η := by rw [← Finset.sum_mul, hsum, one_mul]

theorem chord_close {I : ℝ → ℝ} {ν h : ℝ} {p q : ℝ × ℝ} (hh : 0 < h) (hpq : h ≤ q.1 - p.1)
    (hp : |p.2 - I p.1| ≤ ν) (hq : |q.2 - I q.1| ≤ ν) :
    |chord p q - chord (p.1, I p.1) (q.1, I q.1)| ≤ 2 * ν / h := by
  unfold chord
  dsimp only
  rw [← sub_div, abs_div, abs_of_pos (show 0 < q.1 - p.1 by linarith)]
  have hν : 0 ≤ ν := (abs_nonneg _).trans hp
  have : |q.2 - p.2 - (I q.1 - I p.1)| ≤ 2 * ν := by
    rw [show q.2 - p.2 - (I q.1 - I p.1) = (q.2 - I q.1) - (p.2 - I p.1) by ring]
    exact (abs_sub _ _).trans (by linarith)
  exact div_le_div₀ (by linarith) this hh hpq

/-- Points at the same voltages whose currents are given by a function. -/
def trueCurve (I : ℝ → ℝ) (P : List (ℝ × ℝ)) : List (ℝ × ℝ) := P.map fun p => (p.1, I p.1)

theorem slopeAt_close {P : List (ℝ × ℝ)} {I : ℝ → ℝ} {ν h : ℝ} (hh : 0 < h) (hP : P.Pairwise fun p q => h ≤ q.1 - p.1)
    (hν : ∀ p ∈ P, |p.2 - I p.1| ≤ ν) {i : ℕ} {t t' : ℝ} (ht : SlopeAt P i t) (ht' : SlopeAt (trueCurve I P) i t') :
    |t - t'| ≤ 2 * ν / h := by
  have hget : ∀ {i : ℕ} {p : ℝ × ℝ}, P[i]? = some p → (trueCurve I P)[i]? = some (p.1, I p.1) := by
    intro i p hp
    unfold trueCurve
    rw [List.getElem?_map, hp]; rfl
  have hstep : ∀ {i j : ℕ} {p q : ℝ × ℝ}, i < j → P[i]? = some p → P[j]? = some q → h ≤ q.1 - p.1 := by
    intro i j p q hij hp hq
    obtain ⟨hi, rfl⟩ := List.getElem?_eq_some_iff.1 hp
    obtain ⟨hj, rfl⟩ := List.getElem?_eq_some_iff.1 hq
    exact List.pairwise_iff_getElem.1 hP i j hi hj hij
  cases ht with
  | first p q h0 h1 =>
    rw [slopeAt_unique ht' (SlopeAt.first _ _ (hget h0) (hget h1))]
    exact chord_close hh (hstep (by omega) h0 h1) (hν _ (List.mem_of_getElem? h0)) (hν _ (List.mem_of_getElem? h1))
  | inner i p q h0 h1 =>
    rw [slopeAt_unique ht' (SlopeAt.inner _ _ _ (hget h0) (hget h1))]
    exact chord_close hh (hstep (by omega) h0 h1) (hν _ (List.mem_of_getElem? h0)) (hν _ (List.mem_of_getElem? h1))
  | last i p q hl h0 h1 =>
    rw [slopeAt_unique ht' (SlopeAt.last _ _ _ (by unfold trueCurve; rw [List.length_map]; exact hl) (hget h0) (hget h1))]
    exact chord_close hh (hstep (by omega) h0 h1) (hν _ (List.mem_of_getElem? h0)) (hν _ (List.mem_of_getElem? h1))

/-- The point of the largest smoothed slope of the measured curve is nearly the steepest of the true curve. -/
theorem steepest_close {P : List (ℝ × ℝ)} {I : ℝ → ℝ} {ν h s : ℝ} {d y : List ℝ} {k : ℕ} {p : ℝ × ℝ} {m : ℝ} (hh : 0 < h)
    (hP : P.Pairwise fun p q => h ≤ q.1 - p.1) (hν : ∀ p ∈ P, |p.2 - I p.1| ≤ ν)
    (hd : slope (P.map Prod.fst) (P.map Prod.snd) = .ok d) (hy : gaussConv d s 3 = .ok y) (hp : P[k]? = some p)
    (hm : y[k]? = some m) (hmax : ∀ t ∈ y, t ≤ m) : NearSteepest (trueCurve I P) s (4 * ν / h) (p.1, I p.1) := by
  have hx : (trueCurve I P).map Prod.fst = P.map Prod.fst := by
    unfold trueCurve; rw [List.map_map]; rfl
  have hlen : (trueCurve I P).length = P.length := by unfold trueCurve; rw [List.length_map]
  obtain ⟨d', hd'⟩ := (C156_accepts (trueCurve I P)).2 (by
    obtain ⟨c1, c2, c3, c4⟩ := (C156_accepts P).1 ⟨d, hd⟩
    have hex : ∀ {i : ℕ} {p : ℝ × ℝ}, (trueCurve I P)[i]? = some p → ∃ q, P[i]? = some q ∧ q.1 = p.1 := by
      intro i p hp
      unfold trueCurve at hp
      rw [List.getElem?_map] at hp
      obtain ⟨q, hq, rfl⟩ := Option.map_eq_some_iff.1 hp
      exact ⟨q, hq, rfl⟩
    rw [hlen]
    refine ⟨c1, ?_, ?_, ?_⟩
    · intro i p q hp hq
      obtain ⟨p', hp', e1⟩ := hex hp
      obtain ⟨q', hq', e2⟩ := hex hq
      rw [← e1, ← e2]; exact c2 i _ _ hp' hq'
    · intro p q hp hq
      obtain ⟨p', hp', e1⟩ := hex hp
      obtain ⟨q', hq', e2⟩ := hex hq
      rw [← e1, ← e2]; exact c3 _ _ hp' hq'
    · intro i p q hi hp hq
      obtain ⟨p', hp', e1⟩ := hex hp
      obtain ⟨q', hq', e2⟩ := hex hq
      rw [← e1, ← e2]; exact c4 i _ _ hi hp' hq')
  obtain ⟨l1, s1⟩ := C156_slope hd
  obtain ⟨l2, s2⟩ := C156_slope hd'
  have ll : d'.length = d.length := by rw [l1, l2, hlen]
  obtain ⟨g1, g2, gy⟩ := gaussConv_ok hy
  obtain ⟨y', hy'⟩ := (C155_accepts d' s 3).2 (by rw [ll]; exact (C155_accepts d s 3).1 ⟨y, hy⟩)
  obtain ⟨-, -, gy'⟩ := gaussConv_ok hy'
  have hη : 0 ≤ 2 * ν / h := by
    have : 0 ≤ ν := (abs_nonneg _).trans (hν p (List.mem_of_getElem? hp))
    positivity
  have hc := smoothAt_close (η := 2 * ν / h) ll g1 (by
    intro j
    by_cases hj : j < d.length
    · rw [List.getD_eq_getElem?_getD, List.getD_eq_getElem?_getD, List.getElem?_eq_getElem hj,
        List.getElem?_eq_getElem (by rw [ll]; exact hj)]
      exact slopeAt_close hh hP hν (s1 j _ (List.getElem?_eq_getElem hj))
        (s2 j _ (List.getElem?_eq_getElem (by rw [ll]; exact hj)))
    · rw [List.getD_eq_getElem?_getD, List.getD_eq_getElem?_getD, List.getElem?_eq_none (by omega),
        List.getElem?_eq_none (by omega)]
      simpa using hη)
  have hk : k < d.length := by
    rw [l1]; exact (List.getElem?_eq_some_iff.1 hp).1
  have hm' : m = smoothAt s 3 d k := by
    have := tab_getD (f := smoothAt s 3 d) hk (d := 0)
    rw [← gy, List.getD_eq_getElem?_getD, hm] at this
    exact this
  refine ⟨d', y', k, smoothAt s 3 d' k, by rw [l2], s2, C155_average hy', ?_, ?_, ?_⟩
  · unfold trueCurve
    rw [List.getElem?_map, hp]; rfl
  · rw [gy', ll]
    have := tab_getD (f := smoothAt s 3 d') hk (d := 0)
    rw [List.getD_eq_getElem?_getD, List.getElem?_eq_getElem (by rw [tab_length]; exact hk)] at this
    rw [List.getElem?_eq_getElem (by rw [tab_length]; exact hk)]
    exact congrArg some this
  · intro t ht
    obtain ⟨j, hj, rfl⟩ := List.getElem_of_mem ht
    have hj' : j < d.length := by rw [gy', tab_length, ll] at hj; exact hj
    have e1 : y'[j] = smoothAt s 3 d' j := by
      have := tab_getD (f := smoothAt s 3 d') (ll ▸ hj') (d := 0) (n := d'.length)
      rw [← gy', List.getD_eq_getElem?_getD, List.getElem?_eq_getElem hj] at this
      exact this
    have e2 : smoothAt s 3 d j ≤ m := by
      apply hmax
      rw [gy]
      have := tab_getD (f := smoothAt s 3 d) hj' (d := 0)
      rw [← this, List.getD_eq_getElem?_getD, List.getElem?_eq_getElem (by rw [tab_length]; exact hj')]
      exact List.getElem_mem _
    rw [e1]
    have a1 := abs_le.1 (hc j)
    have a2 := abs_le.1 (hc k)
    rw [hm'] at e2
    have e4 : 4 * ν / h = 2 * ν / h + 2 * ν / h := by ring
    linarith [a1.1, a2.2]

/-! ## C187 -/

/-- C187. The point of a measured curve around which the gap voltage is determined, if every current is wrong by at most `ν` and the
voltages are at least `h` apart: at this point, the smoothed slope of the true curve `I` is at most `4 ν / h` below its largest value. -/
theorem C187_steepest (R : Routines) (o : Opts) (v i : List ℝ) (g : ℝ) (hl : v.length = i.length) (I : ℝ → ℝ) {ν h : ℝ} (hh : 0 < h)
    (hv : v.Pairwise fun a b => h ≤ b - a) (hν : ∀ p ∈ v.zip i, |p.2 - I p.1| ≤ ν) (hg : gapVoltage R o v i = .ok g) :
    ∃ (v0 v1 : ℝ) (p pn pt : ℝ × ℝ) (vc : ℝ), v[0]? = some v0 ∧ v[1]? = some v1 ∧ v1 ≠ v0 ∧ p ∈ v.zip i ∧
      NearSteepest (((v.zip i).filter fun p => decide (2e-3 < p.1)).map fun p => (p.1, I p.1)) (0.2e-3 / (v1 - v0)) (4 * ν / h) (p.1, I p.1) ∧
      BestLine ((v.zip i).filter fun p => decide (o.vrn.1 < p.1 ∧ p.1 < o.vrn.2)) pn ∧
      BestLine ((v.zip i).filter fun q => decide (|q.1 - p.1| < 1e-5)) pt ∧
      pn.1 * vc + pn.2 = pt.1 * vc + pt.2 ∧
      pt.1 * g + pt.2 = (pt.1 * vc + pt.2) / 2 := by
  obtain ⟨L, rfl, rfl⟩ := exists_points hl
  rw [zip_fst_snd] at hν ⊢
  have hL : L.Pairwise fun p q => h ≤ q.1 - p.1 := List.pairwise_map.1 hv
  unfold gapVoltage at hg
  rw [masked_points, py_bind] at hg
  obtain ⟨pn, h1, hg⟩ := bind_ok_iff.1 hg
  obtain ⟨v1, hv1, hg⟩ := bind_ok_iff.1 hg
  obtain ⟨v0, hv0, hg⟩ := bind_ok_iff.1 hg
  rw [masked_points, py_bind] at hg
  obtain ⟨der, hder, hg⟩ := bind_ok_iff.1 hg
  obtain ⟨sg, hsg, hg⟩ := bind_ok_iff.1 hg
  obtain ⟨der', hder', hg⟩ := bind_ok_iff.1 hg
  obtain ⟨k, hk, hg⟩ := bind_ok_iff.1 hg
  obtain ⟨vg, h2, hg⟩ := bind_ok_iff.1 hg
  rw [masked_points, py_bind] at hg
  obtain ⟨pt, h3, hg⟩ := bind_ok_iff.1 hg
  unfold gapFromLines at hg
  obtain ⟨vc, h4, hg⟩ := bind_ok_iff.1 hg
  unfold Np.fdiv at h4 hg hsg
  split_ifs at h4 with c1
  split_ifs at hsg with c3
  dsimp only at hg
  split_ifs at hg with c2
  obtain rfl := Except.ok.inj h4
  obtain rfl := Except.ok.inj hg
  obtain rfl := Except.ok.inj hsg
  unfold argmax at hk
  obtain ⟨m, hm1, hm2, hm3⟩ := argmin_spec hk
  rw [List.getElem?_map] at hm1
  obtain ⟨m', hm', rfl⟩ := Option.map_eq_some_iff.1 hm1
  have h2' := pyGet_some h2
  rw [List.getElem?_map] at h2'
  obtain ⟨p, hp, rfl⟩ := Option.map_eq_some_iff.1 h2'
  refine ⟨v0, v1, p, pn, pt, (pt.2 - pn.2) / (pn.1 - pt.1), pyGet_some (i := 0) hv0, pyGet_some (i := 1) hv1,
    sub_ne_zero.1 c3, List.mem_of_mem_filter (List.mem_of_getElem? hp), ?_, polyfit_best h1, ?_, ?_, ?_⟩
  · refine steepest_close hh (hL.filter _) (fun q hq => hν q (List.mem_of_mem_filter hq)) hder hder' hp hm' ?_
    intro t ht
    have := hm2 (-t) (List.mem_map.2 ⟨t, ht, rfl⟩)
    linarith
  · have := polyfit_best h3
    intro q
    have e : (L.filter fun q => decide (|q.1 - p.1| < 1e-5)) =
        L.filter fun q => decide (p.1 - 0.1e-4 < q.1 ∧ q.1 < p.1 + 0.1e-4) := by
      apply List.filter_congr
      intro q _
      rw [decide_eq_decide, abs_lt]
      constructor
      · rintro ⟨h1, h2⟩; constructor <;> linarith
      · rintro ⟨h1, h2⟩; constructor <;> linarith
    rw [e]; exact this q
  · field_simp
    ring
  · field_simp
    ring

/-- The mean voltage is between the voltages. -/
theorem meanX_near {L : List (ℝ × ℝ)} {x D : ℝ} (hL : L ≠ []) (h : ∀ q ∈ L, |x - q.1| ≤ D) : |x - meanX L| ≤ D := by
  have hn : (0 : ℝ) < L.length := by
    have := List.length_pos_iff.2 hL
    positivity
  have key : ∀ L : List (ℝ × ℝ), (∀ q ∈ L, |x - q.1| ≤ D) → |L.length * x - (L.map Prod.fst).sum| ≤ L.length * D := by
    intro L
    induction L with
    | nil => intro _; simp
    | cons a L ih =>
      intro h
      have h1 := abs_le.1 (h a List.mem_cons_self)
      have h2 := abs_le.1 (ih fun q hq => h q (List.mem_cons_of_mem _ hq))
      rw [List.map_cons, List.sum_cons, List.length_cons, abs_le]
      push_cast
      constructor <;> linarith [h1.1, h1.2, h2.1, h2.2]
  unfold meanX
  have e : x - (L.map Prod.fst).sum / L.length = (L.length * x - (L.map Prod.fst).sum) / L.length := by
    field_simp
  rw [e, abs_div, abs_of_pos hn, div_le_iff₀ hn, mul_comm D]
  exact key L h

/-- The gap voltage from two lines that are nearly right. -/
theorem gap_close {pt pn : ℝ × ℝ} {a b n c vc g vc0 g0 εt εn A : ℝ} (hA : A ≤ pt.1) (hA0 : 0 < A) (hn0 : 0 ≤ pn.1) (hn : 2 * pn.1 ≤ A)
    (hc : pn.1 * vc + pn.2 = pt.1 * vc + pt.2) (hg : pt.1 * g + pt.2 = (pt.1 * vc + pt.2) / 2)
    (hc0 : n * vc0 + c = a * vc0 + b) (hg0 : a * g0 + b = (a * vc0 + b) / 2)
    (t1 : |pt.1 * vc0 + pt.2 - (a * vc0 + b)| ≤ εt) (t2 : |pt.1 * g0 + pt.2 - (a * g0 + b)| ≤ εt)
    (n1 : |pn.1 * vc0 + pn.2 - (n * vc0 + c)| ≤ εn) : |g - g0| ≤ (εn + 3 / 2 * εt) / A := by
  obtain ⟨p1, p2⟩ := pt
  obtain ⟨q1, q2⟩ := pn
  dsimp only at *
  set x := vc - vc0 with hx
  set u := g - g0 with hu
  set e1 := p1 * vc0 + p2 - (a * vc0 + b) with he1
  set e2 := p1 * g0 + p2 - (a * g0 + b) with he2
  set e3 := q1 * vc0 + q2 - (n * vc0 + c) with he3
  have k1 : (p1 - q1) * x = e3 - e1 := by
    rw [hx, he1, he3]; linarith
  have k2 : p1 * u = (q1 * x + e3) / 2 - e2 := by
    rw [hx, hu, he2, he3]; linarith
  have k3 : |q1 * x| ≤ |(p1 - q1) * x| := by
    rw [abs_mul, abs_mul, abs_of_nonneg hn0, abs_of_nonneg (show 0 ≤ p1 - q1 by linarith)]
    exact mul_le_mul_of_nonneg_right (by linarith) (abs_nonneg _)
  rw [k1] at k3
  have k4 : |p1 * u| ≤ εn + 3 / 2 * εt := by
    rw [k2, abs_le]
    have a1 := abs_le.1 t1
    have a2 := abs_le.1 t2
    have a3 := abs_le.1 n1
    have a4 : |e3 - e1| ≤ εn + εt := (abs_sub _ _).trans (add_le_add n1 t1)
    have a5 := abs_le.1 (k3.trans a4)
    constructor <;> linarith [a1.1, a1.2, a2.1, a2.2, a3.1, a3.2, a5.1, a5.2]
  rw [abs_mul, abs_of_pos (show 0 < p1 by linarith)] at k4
  rw [le_div_iff₀ hA0, mul_comm]
  exact (mul_le_mul_of_nonneg_right hA (abs_nonneg _)).trans k4

/-- C187. How wrong the gap voltage of a measured curve is, if every current is wrong by at most `ν` and the voltages are at least `h`
apart. The true curve `I` follows the line `n x + c` in the range of the normal resistance, and the line `a x + b` within 10 µV of every
point whose smoothed slope is within `4 ν / h` of the largest one (that is: the transition is steeper than anything else by more than the
noise). Then the gap voltage differs from that of the two lines by at most the error of the normal line where they cross and 3/2 of the
error of the transition line, divided by the slope of the transition. -/
theorem C187_gap (R : Routines) (o : Opts) (v i : List ℝ) (g : ℝ) (hl : v.length = i.length) (I : ℝ → ℝ) {ν h : ℝ} (hh : 0 < h)
    (hv : v.Pairwise fun a b => h ≤ b - a) (hν : ∀ p ∈ v.zip i, |p.2 - I p.1| ≤ ν) {a b n c vc0 g0 wt wn D E : ℝ}
    (hline : ∀ x ∈ v, o.vrn.1 < x → x < o.vrn.2 → I x = n * x + c)
    (hwn : 0 < wn) (hsn : Spread ((v.zip i).filter fun p => decide (o.vrn.1 < p.1 ∧ p.1 < o.vrn.2)) wn)
    (hne : ∃ x ∈ v, o.vrn.1 < x ∧ x < o.vrn.2)
    (hE : ∀ x ∈ v, o.vrn.1 < x → x < o.vrn.2 → |vc0 - x| ≤ E)
    (hwt : 0 < wt)
    (htrans : ∀ v0 v1 x, v[0]? = some v0 → v[1]? = some v1 →
      NearSteepest ((v.filter fun x => decide (2e-3 < x)).map fun x => (x, I x)) (0.2e-3 / (v1 - v0)) (4 * ν / h) (x, I x) →
      (∀ y ∈ v, |y - x| < 1e-5 → I y = a * y + b ∧ |vc0 - y| ≤ D ∧ |g0 - y| ≤ D) ∧
      Spread ((v.zip i).filter fun q => decide (|q.1 - x| < 1e-5)) wt)
    (hc0 : n * vc0 + c = a * vc0 + b) (hg0 : a * g0 + b = (a * vc0 + b) / 2)
    (hn0 : 0 < n) (hn : ν / wn ≤ n) (ha : 2 * (n + ν / wn) ≤ a - ν / wt) (hg : gapVoltage R o v i = .ok g) :
    |g - g0| ≤ (ν * (1 + E / wn) + 3 / 2 * (ν * (1 + D / wt))) / (a - ν / wt) := by
  obtain ⟨v0, v1, p, pn, pt, vc, q0, q1, -, hpm, hst, hbn, hbt, hc, hgt⟩ := C187_steepest R o v i g hl I hh hv hν hg
  obtain ⟨L, rfl, rfl⟩ := exists_points hl
  rw [zip_fst_snd] at *
  have hmem : ∀ q ∈ L, q.1 ∈ L.map Prod.fst := fun q hq => List.mem_map.2 ⟨q, hq, rfl⟩
  have e1 : ((L.map Prod.fst).filter fun x => decide (2e-3 < x)).map (fun x => (x, I x)) =
      (L.filter fun p => decide (2e-3 < p.1)).map fun p => (p.1, I p.1) := by
    rw [List.filter_map, List.map_map]; rfl
  obtain ⟨ht, hst⟩ := htrans v0 v1 p.1 q0 q1 (by rw [e1]; exact hst)
  obtain ⟨x, hx, hx1, hx2⟩ := hne
  obtain ⟨q, hq, rfl⟩ := List.mem_map.1 hx
  have hN : (L.filter fun p => decide (o.vrn.1 < p.1 ∧ p.1 < o.vrn.2)) ≠ [] :=
    List.ne_nil_of_mem (List.mem_filter.2 ⟨hq, by simpa using ⟨hx1, hx2⟩⟩)
  have hν0 : 0 ≤ ν := (abs_nonneg _).trans (hν q hq)
  have hpL := hpm
  have hT : (L.filter fun q => decide (|q.1 - p.1| < 1e-5)) ≠ [] :=
    List.ne_nil_of_mem (List.mem_filter.2 ⟨hpL, by norm_num⟩)
  have memN : ∀ q ∈ L.filter fun p => decide (o.vrn.1 < p.1 ∧ p.1 < o.vrn.2), q ∈ L ∧ o.vrn.1 < q.1 ∧ q.1 < o.vrn.2 := by
    intro q hq
    simpa using List.mem_filter.1 hq
  have memT : ∀ q ∈ L.filter fun q => decide (|q.1 - p.1| < 1e-5), q ∈ L ∧ |q.1 - p.1| < 1e-5 := by
    intro q hq
    simpa only [List.mem_filter, decide_eq_true_eq] using hq
  obtain ⟨sn, fn⟩ := C180_line hN hbn hwn hsn (a := n) (b := c) (ν := ν) (by
    intro q hq
    obtain ⟨m1, m2, m3⟩ := memN q hq
    rw [← hline q.1 (hmem q m1) m2 m3]
    exact hν q m1)
  obtain ⟨st, ft⟩ := C180_line hT hbt hwt hst (a := a) (b := b) (ν := ν) (by
    intro q hq
    obtain ⟨m1, m2⟩ := memT q hq
    rw [← (ht q.1 (hmem q m1) m2).1]
    exact hν q m1)
  have bnd : ∀ {x y D w : ℝ}, 0 < w → |x - y| ≤ D → ν * (1 + |x - y| / w) ≤ ν * (1 + D / w) := by
    intro x y D w hw hD
    have := div_le_div_of_nonneg_right hD hw.le
    exact mul_le_mul_of_nonneg_left (by linarith) hν0
  have sn' := abs_le.1 sn
  have st' := abs_le.1 st
  have hnn : 0 ≤ ν / wn := by positivity
  refine gap_close (A := a - ν / wt) (by linarith [st'.1]) (by linarith) (by linarith [sn'.1]) (by linarith [sn'.2]) hc hgt hc0 hg0
    ((ft vc0).trans (bnd hwt (meanX_near hT ?_))) ((ft g0).trans (bnd hwt (meanX_near hT ?_)))
    ((fn vc0).trans (bnd hwn (meanX_near hN ?_)))
  · intro q hq
    obtain ⟨m1, m2⟩ := memT q hq
    exact (ht q.1 (hmem q m1) m2).2.1
  · intro q hq
    obtain ⟨m1, m2⟩ := memT q hq
    exact (ht q.1 (hmem q m1) m2).2.2
  · intro q hq
    obtain ⟨m1, m2, m3⟩ := memN q hq
    exact hE q.1 (hmem q m1) m2 m3

/-- A true curve near `coarse`: all currents of `coarse` are right but the one at 2.8 mV. -/
noncomputable def smooth (x : ℝ) : ℝ :=
  if x < 2e-3 then 0 else if x < 3e-3 then 19.9e6 * x - 55719.5 else 2e5 * x - 699

/-- The points near the steepest slope are those of the transition. -/
theorem smooth_transition {x : ℝ}
    (h : NearSteepest [(2.8e-3, 0.5), (2.805e-3, 100), (4e-3, 101), (4.005e-3, 102)] (0.2e-3 / (0.6e-3 - 0)) 4e5 (x, smooth x)) :
    x = 2.8e-3 ∨ x = 2.805e-3 := by
  set P : List (ℝ × ℝ) := [(2.8e-3, 0.5), (2.805e-3, 100), (4e-3, 101), (4.005e-3, 102)] with hP
  obtain ⟨d, y, k, m, hd1, hd2, hy, hp, hm, hmax⟩ := h
  obtain ⟨e, he⟩ := mirrored_exists d
  have hc := smoothed_centred (r := 1) (by norm_num) hy he
  have hdn : d.length = 4 := by rw [hd1]; rfl
  have hyn : y.length = 4 := by rw [hy.1, hdn]
  have dv : ∀ j : ℕ, j < 4 → d[j]? = some (e j) ∧ SlopeAt P j (e j) := by
    intro j hj
    have h1 : d[j]? = some d[j] := List.getElem?_eq_getElem (by omega)
    rw [he.inside j _ h1]
    exact ⟨h1, hd2 j _ h1⟩
  have e0 : e 0 = 1.99e7 := by
    have := slopeAt_unique (dv 0 (by omega)).2 (SlopeAt.first _ _ rfl rfl)
    rw [show e 0 = _ from this]; norm_num [chord]
  have e1 : e 1 = 100.5 / 1.2e-3 := by
    have := slopeAt_unique (dv 1 (by omega)).2 (SlopeAt.inner 0 _ _ rfl rfl)
    rw [show e 1 = _ from this]; norm_num [chord]
  have e2 : e 2 = 2 / 1.2e-3 := by
    have := slopeAt_unique (dv 2 (by omega)).2 (SlopeAt.inner 1 _ _ rfl rfl)
    rw [show e 2 = _ from this]; norm_num [chord]
  have e3 : e 3 = 2e5 := by
    have := slopeAt_unique (dv 3 (by omega)).2 (SlopeAt.last 2 _ _ rfl rfl rfl)
    rw [show e 3 = _ from this]; norm_num [chord]
  have em : e (-1) = e 1 := he.first 1 (by omega)
  have e4 : e 4 = e 2 := by
    have := he.last 1 (by omega)
    rw [hdn] at this
    exact this
  set s : ℝ := 0.2e-3 / (0.6e-3 - 0) with hs
  have hw : ∀ i : ℕ, ∀ m, y[i]? = some m →
      m * (bell s (-1) + (bell s 0 + bell s 1)) = bell s (-1) * e (i + -1) + (bell s 0 * e (i + 0) + bell s 1 * e (i + 1)) := by
    intro i m hm
    have := hc i m hm
    unfold BellAverage at this
    rw [show Finset.Icc (-((1 : ℕ) : ℤ)) ((1 : ℕ) : ℤ) = {-1, 0, 1} by rfl] at this
    simpa using this
  have hb0 : bell s 0 = 1 := by unfold bell; norm_num
  have hb1 : bell s (-1) = bell s 1 := by unfold bell; congr 1; ring
  have hbp : 0 < bell s 1 := Real.exp_pos _
  have hbl : bell s 1 < 1 := by
    unfold bell
    rw [Real.exp_lt_one_iff]
    norm_num [hs]
  rw [hb0, hb1] at hw
  generalize bell s 1 = w at hw hbp hbl
  have y0 : y[0]? = some (y.getD 0 0) := by
    rw [List.getD_eq_getElem?_getD, List.getElem?_eq_getElem (by omega)]; rfl
  have hy0 := hw 0 _ y0
  have hk4 : k < 4 := by
    by_contra hh
    rw [List.getElem?_eq_none (by rw [hyn]; omega)] at hm
    cases hm
  have hkw := hw k m hm
  have hprod := mul_le_mul_of_nonneg_right (hmax _ (List.mem_of_getElem? y0)) (show 0 ≤ w + (1 + w) by linarith)
  rw [hy0, add_mul, hkw] at hprod
  clear hy0 hkw hw hc hy
  rcases (show k = 0 ∨ k = 1 ∨ k = 2 ∨ k = 3 by omega) with rfl | rfl | rfl | rfl
  · left
    exact (congrArg Prod.fst (Option.some.inj hp)).symm
  · right
    exact (congrArg Prod.fst (Option.some.inj hp)).symm
  · exfalso
    norm_num [em, e0, e1, e2, e3] at hprod
    linarith
  · exfalso
    norm_num [em, e0, e1, e2, e3, e4] at hprod
    linarith

/-- `C187_gap` applies to `coarse`, of which one current is wrong by 1/2. -/
example (R : Routines) (o : Opts) (ho : o.vrn = (3.9e-3, 4.1e-3)) :
    ∃ g vc0 g0, gapVoltage R o (coarse.map Prod.fst) (coarse.map Prod.snd) = .ok g ∧
      2e5 * vc0 - 699 = 19.9e6 * vc0 - 55719.5 ∧ 19.9e6 * g0 - 55719.5 = (19.9e6 * vc0 - 55719.5) / 2 ∧ |g - g0| ≤ 1e-4 := by
  obtain ⟨g, hg⟩ := coarse_gap R o ho
  have hz : (coarse.map Prod.fst).zip (coarse.map Prod.snd) = coarse := zip_fst_snd _
  have fN : (coarse.filter fun p => decide (o.vrn.1 < p.1 ∧ p.1 < o.vrn.2)) = [(4e-3, 101), (4.005e-3, 102)] := by
    unfold coarse
    rw [ho]
    norm_num [List.filter]
  have fT : ∀ x : ℝ, x = 2.8e-3 ∨ x = 2.805e-3 → (coarse.filter fun q => decide (|q.1 - x| < 1e-5)) =
      [(2.8e-3, 0), (2.805e-3, 100)] := by
    rintro x (rfl | rfl) <;>
    · unfold coarse
      norm_num [List.filter, abs_lt]
  have hN : ∀ x ∈ coarse.map Prod.fst, o.vrn.1 < x → x < o.vrn.2 → x = 4e-3 ∨ x = 4.005e-3 := by
    intro x hx h1 h2
    obtain ⟨q, hq, rfl⟩ := List.mem_map.1 hx
    have : q ∈ coarse.filter fun p => decide (o.vrn.1 < p.1 ∧ p.1 < o.vrn.2) := List.mem_filter.2 ⟨hq, by simpa using ⟨h1, h2⟩⟩
    rw [fN] at this
    simp only [List.mem_cons, List.not_mem_nil, or_false] at this
    rcases this with rfl | rfl
    · left; rfl
    · right; rfl
  refine ⟨g, 55020.5 / 19.7e6, ((19.9e6 * (55020.5 / 19.7e6) - 55719.5) / 2 + 55719.5) / 19.9e6, hg, by norm_num, by norm_num, ?_⟩
  have := C187_gap R o _ _ g (by simp) smooth (ν := 1 / 2) (h := 5e-6) (by norm_num) ?_ ?_ (a := 19.9e6) (b := -55719.5) (n := 2e5) (c := -699)
    (vc0 := 55020.5 / 19.7e6) (g0 := ((19.9e6 * (55020.5 / 19.7e6) - 55719.5) / 2 + 55719.5) / 19.9e6) (wt := 2.5e-6) (wn := 2.5e-6)
    (D := 2e-5) (E := 2e-3) ?_ (by norm_num) ?_ ?_ ?_ (by norm_num) ?_ (by norm_num) (by norm_num) (by norm_num) (by norm_num) (by norm_num) hg
  · refine this.trans ?_
    norm_num
  · unfold coarse
    norm_num [List.pairwise_cons]
  · rw [hz]
    intro p hp
    unfold coarse at hp
    simp only [List.mem_cons, List.not_mem_nil, or_false] at hp
    rcases hp with rfl | rfl | rfl | rfl | rfl | rfl <;> norm_num [smooth, abs_le]
  · intro x hx h1 h2
    rcases hN x hx h1 h2 with rfl | rfl <;> norm_num [smooth]
  · rw [hz, fN]
    norm_num [Spread, meanX]
  · rw [ho]
    refine ⟨4e-3, ?_, by norm_num, by norm_num⟩
    unfold coarse
    norm_num
  · intro x hx h1 h2
    rcases hN x hx h1 h2 with rfl | rfl <;> norm_num [abs_le]
  · intro v0 v1 x h0 h1 hst
    obtain rfl : v0 = 0 := (Option.some.inj h0).symm
    obtain rfl : v1 = 0.6e-3 := (Option.some.inj h1).symm
    have e : ((coarse.map Prod.fst).filter fun x => decide (2e-3 < x)).map (fun x => (x, smooth x))
        = [(2.8e-3, 0.5), (2.805e-3, 100), (4e-3, 101), (4.005e-3, 102)] := by
      unfold coarse
      norm_num [List.filter, smooth]
    rw [e, show (4 * (1 / 2) / 5e-6 : ℝ) = 4e5 by norm_num] at hst
    have hx := smooth_transition hst
    refine ⟨?_, ?_⟩
    · intro y hy hyx
      obtain ⟨q, hq, rfl⟩ := List.mem_map.1 hy
      have : q ∈ coarse.filter fun q => decide (|q.1 - x| < 1e-5) := List.mem_filter.2 ⟨hq, by simpa using hyx⟩
      rw [fT x hx] at this
      simp only [List.mem_cons, List.not_mem_nil, or_false] at this
      rcases this with rfl | rfl <;> norm_num [smooth, abs_le]
    · rw [hz, fT x hx]
      norm_num [Spread, meanX]

end QMix.Props
