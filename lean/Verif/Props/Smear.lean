import Verif.Props.Filters
import Verif.Spec.Smear
import Verif.Lemmas.RespFn2

/-!
# C160: what `v_smear` does to a response function
-/

namespace QMix.Props

open QMix.Np QMix.MathFn QMix.RespFn QMix.Spec

theorem unfolded {a : List ℝ} (h : 1 ≤ a.length) : Unfolded a (reflected a) := by
  have hl := reflected_length h
  refine ⟨by omega, ?_, ?_⟩
  · intro k t ht
    unfold reflected
    rw [List.getElem?_append_right (by simp)]
    simp only [List.length_map, List.length_dropLast, List.length_reverse]
    rw [show a.length - 1 + k - (a.length - 1) = k by omega, ht]
  · intro k t hk ht
    have hka : k < a.length := by
      by_contra hh
      rw [List.getElem?_eq_none (by omega)] at ht
      cases ht
    unfold reflected
    rw [List.getElem?_append_left (by simp; omega), List.getElem?_map, List.getElem?_dropLast,
      if_pos (by simp; omega), List.getElem?_reverse (by omega), show a.length - 1 - (a.length - 1 - k) = k by omega,
      ht]
    rfl

/-- C160: with `v_smear = s` the excess current (over the voltage) that is stored is the excess current of
the data, continued to negative voltages, averaged with a bell curve of width `s`, cut off at three
widths. -/
theorem C160_smear {S : Splines} {v c : List ℝ} {p : Params} {r : Obj} (h : respInit S v c p = .ok r) {s : ℝ}
    (hs : p.vSmear = some s) (hl : c.length = v.length) :
    ∃ (raw : List ℝ) (d : ℝ), Unfolded v r.voltage ∧ Unfolded c raw ∧
      d = v.getD (v.length - 1) 0 - v.getD (v.length - 2) 0 ∧ d ≠ 0 ∧ 1 ≤ 3 * (s / d) ∧
      r.current.length = r.voltage.length ∧
      Smoothed (s / d) 3 (List.zipWith (fun a b => a - b) raw r.voltage)
        (List.zipWith (fun a b => a - b) r.current r.voltage) := by
  obtain ⟨h0, -, -, hv, hc, -⟩ := respInit_ok h
  rw [hs] at hc
  unfold smear at hc
  dsimp only at hc
  obtain ⟨v1, e1, hc⟩ := bind_ok_iff.1 hc
  obtain ⟨v0, e0, hc⟩ := bind_ok_iff.1 hc
  obtain ⟨x, ex, hc⟩ := bind_ok_iff.1 hc
  obtain ⟨sigma, es, hc⟩ := bind_ok_iff.1 hc
  obtain ⟨y, ey, hc⟩ := bind_ok_iff.1 hc
  have hrv := reflected_length (a := v) (by omega)
  have hc0 : 1 ≤ c.length := by omega
  have hrc := reflected_length hc0
  have hlen : (reflected c).length = (reflected v).length := by omega
  have hx : x = List.zipWith (fun a b => a - b) (reflected c) (reflected v) := by
    unfold zip at ex
    rw [if_pos hlen] at ex
    exact (Except.ok.inj ex).symm
  have hyl : y.length = (reflected v).length := by
    rw [(C155_average ey).1, hx, List.length_zipWith, hlen, min_self]
  have hcur : r.current = List.zipWith (fun a b => a + b) y (reflected v) := by
    unfold zip at hc
    rw [if_pos hyl] at hc
    exact (Except.ok.inj hc).symm
  obtain ⟨l1, rfl⟩ := pyGet_nat (i := 1) e1
  obtain ⟨l0, rfl⟩ := pyGet_nat (i := 0) e0
  have hU := unfolded (a := v) (by omega)
  have hv2 : 2 ≤ v.length := by omega
  have g0 : (reflected v).getD 0 0 = -v.getD (v.length - 1) 0 := by
    have := hU.left (v.length - 1) (v.getD (v.length - 1) 0) (by omega)
      (by rw [List.getD_eq_getElem?_getD, List.getElem?_eq_getElem (by omega)]; rfl)
    rw [show v.length - 1 - (v.length - 1) = 0 by omega] at this
    rw [List.getD_eq_getElem?_getD, this]
    rfl
  have g1 : (reflected v).getD 1 0 = -v.getD (v.length - 2) 0 := by
    by_cases h2 : v.length = 2
    · have := hU.right 0 (v.getD 0 0) (by rw [List.getD_eq_getElem?_getD, List.getElem?_eq_getElem (by omega)]; rfl)
      have hz : v.getD 0 0 = 0 := by
        obtain ⟨-, hz, -⟩ := respInit_ok h
        exact hz
      rw [h2] at this ⊢
      rw [List.getD_eq_getElem?_getD, this]
      simp only [Option.getD_some, hz]
      simp
    · have := hU.left (v.length - 2) (v.getD (v.length - 2) 0) (by omega)
        (by rw [List.getD_eq_getElem?_getD, List.getElem?_eq_getElem (by omega)]; rfl)
      rw [show v.length - 1 - (v.length - 2) = 1 by omega] at this
      rw [List.getD_eq_getElem?_getD, this]
      rfl
  have hsig : sigma = s / (v.getD (v.length - 1) 0 - v.getD (v.length - 2) 0) := by
    unfold fdiv at es
    split at es
    · cases es
    · have := (Except.ok.inj es).symm
      rw [this, g1, g0]
      congr 1
      ring
  have hsub : List.zipWith (fun a b => a - b) r.current r.voltage = y := by
    rw [hcur, hv]
    apply List.ext_getElem
    · simp [hyl]
    · intro i h1 h2
      simp
  refine ⟨reflected c, _, hv ▸ hU, unfolded hc0, rfl, ?_, ?_, ?_, ?_⟩
  · intro hd
    unfold fdiv at es
    rw [if_pos (by rw [g1, g0]; linarith)] at es
    cases es
  · have := (gaussConv_ok ey).1
    rw [hsig] at this
    linarith
  · rw [hcur, hv, List.length_zipWith, hyl, min_self]
  · rw [hsub, hv, ← hx, ← hsig]
    exact C155_average ey

/-- Averaging a constant. -/
theorem smoothed_constant {s w k₀ : ℝ} {x y : List ℝ} (h : Smoothed s w x y) (h0 : 0 ≤ s * w) {i : ℕ} {m : ℝ}
    (hm : y[i]? = some m) (hp : ∀ (j : ℕ) (t : ℝ), x[j]? = some t → |(j : ℝ) - i| ≤ s * w + 1 → t = k₀)
    (h1 : s * w + 1 ≤ i) (h2 : i + (s * w + 1) ≤ x.length - 1) : m = k₀ := by
  obtain ⟨hl, δ, a, b, hδ, hb, ha1, ha2, hav⟩ := h
  obtain ⟨e, he⟩ := mirrored_exists x
  have := hav e he i m hm
  unfold BellAverage at this
  have hδ' := abs_le.1 hδ
  norm_num at hδ' ha1
  have hb1 : (b : ℝ) ≤ s * w + 1 := by linarith [hδ'.2]
  have ha3 : -(s * w + 1) ≤ (a : ℝ) := by linarith [hδ'.1]
  have key : ∀ j ∈ Finset.Icc a b, bell s (j - δ) * e (i + j) = bell s (j - δ) * k₀ := by
    intro j hj
    obtain ⟨j1, j2⟩ := Finset.mem_Icc.1 hj
    have j1' : (a : ℝ) ≤ j := by exact_mod_cast j1
    have j2' : (j : ℝ) ≤ b := by exact_mod_cast j2
    have p0 : 0 ≤ (i : ℤ) + j := by
      have : (0 : ℝ) ≤ ((i : ℤ) + j : ℤ) := by push_cast; linarith
      exact_mod_cast this
    obtain ⟨n, hn⟩ := Int.eq_ofNat_of_zero_le p0
    have hn' : (n : ℝ) = i + j := by
      have : ((n : ℤ) : ℝ) = ((i : ℤ) + j : ℤ) := by rw [hn]
      push_cast at this
      exact this
    have hnl : n < x.length := by
      have : (n : ℝ) < x.length := by rw [hn']; linarith
      exact_mod_cast this
    have ht : x[n]? = some x[n] := List.getElem?_eq_getElem hnl
    rw [hn, he.inside n _ ht, hp n _ ht]
    rw [hn', add_sub_cancel_left, abs_le]
    constructor <;> linarith
  rw [Finset.sum_congr rfl key, ← Finset.sum_mul, mul_comm] at this
  refine mul_left_cancel₀ (ne_of_gt ?_) this
  apply Finset.sum_pos
  · intro j _
    unfold bell
    positivity
  · rw [Finset.nonempty_Icc]
    have : (a : ℝ) < b + 1 := by
      by_contra hc
      have hlt := not_lt.1 hc
      linarith
    exact_mod_cast Int.lt_add_one_iff.1 (by exact_mod_cast this)

theorem unfolded_unique {a b b' : List ℝ} (h : Unfolded a b) (h' : Unfolded a b') : b = b' := by
  have hl : b.length = b'.length := by have := h.length; have := h'.length; omega
  have e : ∀ t : ℕ, t < a.length → a[t]? = some (a.getD t 0) := fun t ht => by
    rw [List.getD_eq_getElem?_getD, List.getElem?_eq_getElem ht]; rfl
  apply List.ext_getElem?
  intro i
  have hlen := h.length
  by_cases hi : i < b.length
  · by_cases c : i < a.length - 1
    · have e1 := h.left (a.length - 1 - i) _ (by omega) (e _ (by omega))
      have e2 := h'.left (a.length - 1 - i) _ (by omega) (e _ (by omega))
      rw [show a.length - 1 - (a.length - 1 - i) = i by omega] at e1 e2
      rw [e1, e2]
    · have e1 := h.right (i - (a.length - 1)) _ (e _ (by omega))
      have e2 := h'.right (i - (a.length - 1)) _ (e _ (by omega))
      rw [show a.length - 1 + (i - (a.length - 1)) = i by omega] at e1 e2
      rw [e1, e2]
  · rw [List.getElem?_eq_none (by omega), List.getElem?_eq_none (by omega)]

/-- C160: where the curve is parallel to the normal-state line over the whole window, smearing changes nothing. The
window reaches three widths and one step to either side; `d` is the voltage step. -/
theorem C160_parallel {S : Splines} {v c raw : List ℝ} {p : Params} {r : Obj} (h : respInit S v c p = .ok r)
    {s d k₀ : ℝ} (hs : p.vSmear = some s) (hl : c.length = v.length) (hr : Unfolded c raw)
    (hd : d = v.getD (v.length - 1) 0 - v.getD (v.length - 2) 0) {i : ℕ}
    (hp : ∀ (j : ℕ) (x y : ℝ), raw[j]? = some y → r.voltage[j]? = some x → |(j : ℝ) - i| ≤ 3 * s / d + 1 →
      y = x + k₀) (h1 : 3 * s / d + 1 ≤ i) (h2 : i + (3 * s / d + 1) ≤ r.voltage.length - 1) :
    r.current[i]? = raw[i]? := by
  obtain ⟨raw', d', hU, hU', rfl, h0, hge, hlen, hsm⟩ := C160_smear h hs hl
  obtain rfl := unfolded_unique hr hU'
  rw [← hd] at h0 hge hsm
  have ew : s / d * 3 = 3 * s / d := by ring
  have hrl : raw.length = r.voltage.length := by
    have := hr.length
    have := hU.length
    omega
  have hi : i < r.voltage.length := by
    have : (i : ℝ) < r.voltage.length := by
      have : 3 * (s / d) = 3 * s / d := by ring
      linarith
    exact_mod_cast this
  have hm : (List.zipWith (fun a b => a - b) r.current r.voltage)[i]?
      = some (r.current[i] - r.voltage[i]) := by
    rw [List.getElem?_zipWith, List.getElem?_eq_getElem (by omega), List.getElem?_eq_getElem hi]
  have key := smoothed_constant (k₀ := k₀) hsm (by rw [ew]; linarith [show 3 * (s / d) = 3 * s / d by ring]) hm
    (by
      intro j t ht hj
      rw [ew] at hj
      rw [List.getElem?_zipWith] at ht
      by_cases hjl : j < r.voltage.length
      · rw [List.getElem?_eq_getElem (by omega), List.getElem?_eq_getElem hjl] at ht
        have := hp j _ _ (List.getElem?_eq_getElem (by omega)) (List.getElem?_eq_getElem hjl) hj
        have ht := Option.some.inj ht
        linarith
      · rw [List.getElem?_eq_none (by omega)] at ht
        cases ht) (by rw [ew]; exact h1)
    (by rw [ew, List.length_zipWith, hrl, min_self]; exact h2)
  have := hp i _ _ (List.getElem?_eq_getElem (by omega)) (List.getElem?_eq_getElem hi)
    (by rw [sub_self, abs_zero]; linarith [show 3 * (s / d) = 3 * s / d by ring])
  rw [List.getElem?_eq_getElem (by omega), List.getElem?_eq_getElem (by omega), this, ← key]
  congr 1
  ring

end QMix.Props
