import Verif.Props.IfData

/-!
# Noise temperature and gain from powers with errors
-/

namespace QMix.IfData

open Np Fl Clean

/-- NearPowers powers (bias voltage, hot, cold) of a point of a receiver (bias voltage, gain, noise temperature): each power is
wrong by at most the fraction `ε`. -/
structure NearPowers (th tc ε : ℝ) (m r : ℝ × ℝ × ℝ) : Prop where
  /-- the same bias voltage -/
  bias : m.1 = r.1
  /-- the power of the hot load -/
  hot : |m.2.1 - r.2.1 * (th + r.2.2)| ≤ ε * (r.2.1 * (th + r.2.2))
  /-- the power of the cold load -/
  cold : |m.2.2 - r.2.1 * (tc + r.2.2)| ≤ ε * (r.2.1 * (tc + r.2.2))

/-- The largest error of the noise temperature `T`. -/
noncomputable def tnError (th tc ε T : ℝ) : ℝ :=
  2 * ε * (th + T) * (tc + T) / ((1 - ε) * (th - tc) - 2 * ε * (th + T))

/-- The largest error of the gain `g`. -/
noncomputable def gainError (th tc ε g T : ℝ) : ℝ := ε * g * (th + tc + 2 * T) / (th - tc)

/-! ## Lemmas -/

theorem measured_tn {th tc ε : ℝ} {m r : ℝ × ℝ × ℝ} (hT : tc < th) (hε : 0 ≤ ε) (hε1 : ε < 1) (h : NearPowers th tc ε m r)
    (hg : 0 < r.2.1) (hc : 0 < tc + r.2.2)
    (hsmall : 2 * ε * (th + r.2.2) + (1 - ε) * (1e-10 * (tc + r.2.2)) ≤ (1 - ε) * (th - tc))
    (hpos : 2 * ε * (th + r.2.2) < (1 - ε) * (th - tc)) :
    ∃ t, noiseTemp th tc (num m.2.1) (num m.2.2) = num t ∧ |t - r.2.2| ≤ tnError th tc ε r.2.2 := by
  obtain ⟨-, hh, hcd⟩ := h
  obtain ⟨v, g, T⟩ := r
  obtain ⟨v', ph, pc⟩ := m
  simp only at *
  have hhp : 0 < th + T := by linarith
  have hA : 0 < g * (th + T) := by positivity
  have hB : 0 < g * (tc + T) := by positivity
  have hpc : (1 - ε) * (g * (tc + T)) ≤ pc := by linarith [(abs_le.1 hcd).1]
  have hpc0 : 0 < pc := lt_of_lt_of_le (by have : 0 < 1 - ε := by linarith
                                           positivity) hpc
  set y := ph / pc with hy
  -- `y = (th + T) / (tc + T) * (1 + q)`
  obtain ⟨q, hq, hqb⟩ : ∃ q, y * (tc + T) = (th + T) * (1 + q) ∧ |q| * (1 - ε) ≤ 2 * ε := by
    refine ⟨y * (tc + T) / (th + T) - 1, by field_simp; ring, ?_⟩
    have e : y * (tc + T) / (th + T) - 1
        = ((ph - g * (th + T)) * (g * (tc + T)) - (pc - g * (tc + T)) * (g * (th + T))) / (pc * (g * (th + T))) := by
      rw [hy]
      field_simp
      ring
    rw [e, abs_div, abs_of_pos (by positivity : 0 < pc * (g * (th + T))), div_mul_eq_mul_div, div_le_iff₀ (by positivity)]
    have h1 : |(ph - g * (th + T)) * (g * (tc + T)) - (pc - g * (tc + T)) * (g * (th + T))|
        ≤ 2 * ε * (g * (th + T)) * (g * (tc + T)) := by
      refine (abs_sub _ _).trans ?_
      rw [abs_mul _ (g * (tc + T)), abs_mul _ (g * (th + T)), abs_of_pos hA, abs_of_pos hB]
      have := mul_le_mul_of_nonneg_right hh hB.le
      have := mul_le_mul_of_nonneg_right hcd hA.le
      linarith
    calc _ ≤ 2 * ε * (g * (th + T)) * (g * (tc + T)) * (1 - ε) := mul_le_mul_of_nonneg_right h1 (by linarith)
      _ = 2 * ε * (g * (th + T)) * ((1 - ε) * (g * (tc + T))) := by ring
      _ ≤ 2 * ε * (g * (th + T)) * pc := mul_le_mul_of_nonneg_left hpc (by positivity)
      _ = _ := by ring
  have h1ε : 0 < 1 - ε := by linarith
  have hq1 : -(2 * ε) ≤ q * (1 - ε) := by
    have := mul_le_mul_of_nonneg_right (neg_abs_le q) h1ε.le
    linarith
  -- the Y-factor is above the threshold
  have hy1 : (1 - ε) * (th - tc) - 2 * ε * (th + T) ≤ (y - 1) * (tc + T) * (1 - ε) := by
    have e : (y - 1) * (tc + T) = (th - tc) + (th + T) * q := by linarith
    rw [e]
    nlinarith
  have hyth : 1 + 1e-10 ≤ y := by
    have : (1 - ε) * (1e-10 * (tc + T)) ≤ (y - 1) * (tc + T) * (1 - ε) := by linarith
    have h2 : 1e-10 * ((tc + T) * (1 - ε)) ≤ (y - 1) * ((tc + T) * (1 - ε)) := by linarith
    have := le_of_mul_le_mul_right h2 (by positivity)
    linarith
  have hy0 : 0 < y - 1 := by
    norm_num at hyth ⊢
    linarith
  refine ⟨(th - tc * y) / (y - 1), ?_, ?_⟩
  · rw [noiseTemp_num th tc hpc0.ne', ← hy, max_eq_left hyth]
  · have e : (th - tc * y) / (y - 1) - T = -((th + T) * q) / (y - 1) := by
      rw [div_sub' hy0.ne', div_left_inj' hy0.ne']
      linarith
    rw [e, abs_div, abs_neg, abs_mul, abs_of_pos hhp, abs_of_pos hy0]
    unfold tnError
    rw [div_le_div_iff₀ hy0 (by linarith)]
    have hd : 0 ≤ (1 - ε) * (th - tc) - 2 * ε * (th + T) := by linarith
    calc (th + T) * |q| * ((1 - ε) * (th - tc) - 2 * ε * (th + T)) ≤ (th + T) * |q| * ((y - 1) * (tc + T) * (1 - ε)) :=
          mul_le_mul_of_nonneg_left hy1 (by positivity)
      _ = (th + T) * ((y - 1) * (tc + T)) * (|q| * (1 - ε)) := by ring
      _ ≤ (th + T) * ((y - 1) * (tc + T)) * (2 * ε) := mul_le_mul_of_nonneg_left hqb (by positivity)
      _ = _ := by ring

theorem measured_gain {th tc ε : ℝ} {m r : ℝ × ℝ × ℝ} (hT : tc < th) (h : NearPowers th tc ε m r) :
    |(m.2.1 - m.2.2) / (th - tc) - r.2.1| ≤ gainError th tc ε r.2.1 r.2.2 := by
  obtain ⟨-, hh, hcd⟩ := h
  obtain ⟨v, g, T⟩ := r
  obtain ⟨v', ph, pc⟩ := m
  simp only at *
  have hd : 0 < th - tc := by linarith
  unfold gainError
  rw [div_sub' hd.ne', abs_div, abs_of_pos hd]
  apply div_le_div_of_nonneg_right _ hd.le
  rw [abs_le] at hh hcd ⊢
  constructor <;> nlinarith

/-! ## C179 -/

/-- C179. If every power is wrong by at most the fraction `ε`, the noise temperature at every bias point is wrong by at most
`2 ε (th + T) (tc + T) / ((1 - ε) (th - tc) - 2 ε (th + T))`, and the gain by at most `ε g (th + tc + 2 T) / (th - tc)`. -/
theorem C179_tolerance (o : TnOpts) (vgap th tc ε : ℝ) (l : Meas) (rcv : Receiver) (ho : Loads o th tc) (hT : tc < th) (hε : 0 ≤ ε)
    (hε1 : ε < 1) (hm : List.Forall₂ (NearPowers th tc ε) l rcv)
    (hr : ∀ r ∈ rcv, 0 < r.2.1 ∧ 0 < tc + r.2.2 ∧
      2 * ε * (th + r.2.2) + (1 - ε) * (1e-10 * (tc + r.2.2)) ≤ (1 - ε) * (th - tc))
    (tn gain : List Flt) (idx : ℕ) (h : findTnGain o vgap (hotOf l) (coldOf l) = .ok (tn, gain, idx)) :
    List.Forall₂ (fun x r => ∃ t, x = num t ∧ |t - r.2.2| ≤ tnError th tc ε r.2.2) tn rcv ∧
      List.Forall₂ (fun x r => ∃ g, x = num g ∧ |g - r.2.1| ≤ gainError th tc ε r.2.1 r.2.2) gain rcv := by
  obtain ⟨f, hf, hh, hc⟩ := ho
  rw [findTnGain_eq o vgap _ hf hh hc] at h
  obtain ⟨i, -, h'⟩ := bind_ok_iff.1 h
  have he := pure_ok_iff.1 h'
  simp only [Prod.mk.injEq] at he
  obtain ⟨rfl, rfl, -⟩ := he
  rw [List.forall₂_map_left_iff, List.forall₂_map_left_iff]
  clear h h'
  induction hm with
  | nil => exact ⟨.nil, .nil⟩
  | @cons m r l rcv h1 _ ih =>
    obtain ⟨i1, i2⟩ := ih fun r hr' => hr r (by simp [hr'])
    obtain ⟨hg, hc0, hs⟩ := hr r (by simp)
    refine ⟨.cons ?_ i1, .cons ⟨_, ?_, measured_gain hT h1⟩ i2⟩
    · refine measured_tn hT hε hε1 h1 hg hc0 hs (lt_of_lt_of_le ?_ hs)
      have : 0 < (1 - ε) * (1e-10 * (tc + r.2.2)) := mul_pos (by linarith) (mul_pos (by norm_num) hc0)
      linarith
    · unfold gainOf
      rw [fsub_num, fsub_num, fdiv_num _ (sub_ne_zero.2 hT.ne')]

/-- C179. The best point of the rule "min tn" is the best one up to the errors: no point of the receiver has a noise temperature
that is lower by more than the two errors. -/
theorem C179_min_tn (o : TnOpts) (vgap th tc ε : ℝ) (l : Meas) (rcv : Receiver) (ho : Loads o th tc) (h0 : 0 < tc) (hT : tc < th)
    (hε : 0 ≤ ε) (hε1 : ε < 1) (hm : List.Forall₂ (NearPowers th tc ε) l rcv)
    (hr : ∀ r ∈ rcv, 0 < r.2.1 ∧ 0 < tc + r.2.2 ∧
      2 * ε * (th + r.2.2) + (1 - ε) * (1e-10 * (tc + r.2.2)) ≤ (1 - ε) * (th - tc))
    (hv : o.vbest = none) (hb : MathFn.lower o.bestPt = "min tn".toList)
    (tn gain : List Flt) (idx : ℕ) (h : findTnGain o vgap (hotOf l) (coldOf l) = .ok (tn, gain, idx)) :
    ∃ r, rcv[idx]? = some r ∧ ∀ q ∈ rcv, r.2.2 ≤ q.2.2 + tnError th tc ε q.2.2 + tnError th tc ε r.2.2 := by
  have hl : ∀ p ∈ l, 0 ≤ p.2.1 := by
    intro p hp
    obtain ⟨k, hk, rfl⟩ := List.getElem_of_mem hp
    have hk' : k < rcv.length := by rw [← hm.length_eq]; exact hk
    have hx := (hm.get hk hk').hot
    obtain ⟨hg, hc, -⟩ := hr rcv[k] (List.getElem_mem hk')
    have := (abs_le.1 hx).1
    simp only [List.get_eq_getElem] at this
    have h1 : 0 < rcv[k].2.1 * (th + rcv[k].2.2) := mul_pos hg (by linarith)
    nlinarith
  obtain ⟨t, ht, hmin⟩ := C57_min_tn o vgap th tc l ho h0 hl hv hb tn gain idx h
  obtain ⟨h1, -⟩ := C179_tolerance o vgap th tc ε l rcv ho hT hε hε1 hm hr tn gain idx h
  obtain ⟨hi, hi'⟩ := List.getElem?_eq_some_iff.1 ht
  have hir : idx < rcv.length := by rw [← h1.length_eq]; exact hi
  refine ⟨rcv[idx], List.getElem?_eq_getElem hir, ?_⟩
  obtain ⟨t', e', hle⟩ := h1.get hi hir
  simp only [List.get_eq_getElem] at e' hle
  rw [hi', num_inj] at e'
  subst e'
  intro q hq
  obtain ⟨k, hk, rfl⟩ := List.getElem_of_mem hq
  have hk' : k < tn.length := by rw [h1.length_eq]; exact hk
  obtain ⟨s, es, hs⟩ := h1.get hk' hk
  simp only [List.get_eq_getElem] at es hs
  have := hmin s (by rw [← es]; exact List.getElem_mem hk')
  linarith [(abs_le.1 hle).1, (abs_le.1 hs).2]

/-- C179. The same for the gain and the rule "max gain". -/
theorem C179_max_gain (o : TnOpts) (vgap th tc ε : ℝ) (l : Meas) (rcv : Receiver) (ho : Loads o th tc) (hT : tc < th)
    (hm : List.Forall₂ (NearPowers th tc ε) l rcv) (hv : o.vbest = none) (hb : MathFn.lower o.bestPt = "max gain".toList)
    (tn gain : List Flt) (idx : ℕ) (h : findTnGain o vgap (hotOf l) (coldOf l) = .ok (tn, gain, idx)) :
    ∃ r, rcv[idx]? = some r ∧
      ∀ q ∈ rcv, q.2.1 - gainError th tc ε q.2.1 q.2.2 - gainError th tc ε r.2.1 r.2.2 ≤ r.2.1 := by
  obtain ⟨p, hp, hmax⟩ := C57_max_gain o vgap th tc l ho hT hv hb tn gain idx h
  obtain ⟨hi, hi'⟩ := List.getElem?_eq_some_iff.1 hp
  have hir : idx < rcv.length := by rw [← hm.length_eq]; exact hi
  refine ⟨rcv[idx], List.getElem?_eq_getElem hir, ?_⟩
  have e1 := measured_gain hT (hm.get hi hir)
  simp only [List.get_eq_getElem, hi'] at e1
  intro q hq
  obtain ⟨k, hk, rfl⟩ := List.getElem_of_mem hq
  have hk' : k < l.length := by rw [hm.length_eq]; exact hk
  have e2 := measured_gain hT (hm.get hk' hk)
  simp only [List.get_eq_getElem] at e2
  have h3 := hmax l[k] (List.getElem_mem hk')
  have h4 : (l[k].2.1 - l[k].2.2) / (th - tc) ≤ (p.2.1 - p.2.2) / (th - tc) := div_le_div_of_nonneg_right h3 (by linarith)
  linarith [(abs_le.1 e1).2, (abs_le.1 e2).1]

/-- A receiver with 100 K and one with 200 K, measured with errors of 1 %: loads of 293 K and 78 K give the noise temperatures
within 8 K and 14 K. -/
example : tnError 293 78 0.01 100 ≤ 8 ∧ tnError 293 78 0.01 200 ≤ 14 ∧ gainError 293 78 0.01 1 100 ≤ 0.03 := by
  unfold tnError gainError
  norm_num

/-- The hypotheses can be met: powers of this receiver that are wrong by up to 1 %. -/
example : List.Forall₂ (NearPowers 293 78 0.01) [(0.5, 396, 177), (0.6, 490, 280)] [(0.5, 1, 100), (0.6, 1, 200)] ∧
    ∀ r ∈ [((0.5 : ℝ), (1 : ℝ), (100 : ℝ)), (0.6, 1, 200)], 0 < r.2.1 ∧ 0 < 78 + r.2.2 ∧
      2 * 0.01 * (293 + r.2.2) + (1 - 0.01) * (1e-10 * (78 + r.2.2)) ≤ (1 - 0.01) * (293 - 78) := by
  constructor
  · refine .cons ⟨rfl, ?_, ?_⟩ (.cons ⟨rfl, ?_, ?_⟩ .nil) <;> norm_num [abs_le]
  · intro r hr
    fin_cases hr <;> norm_num

end QMix.IfData
