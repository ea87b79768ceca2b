import Verif.Lemmas.Lipschitz
import Verif.Lemmas.MtsdaExtra

/-! # Limits of the specified current when its data converge -/

namespace QMix.Spec

open Complex Finset Filter Topology

variable {T : Type} {L : Filter T}

/-- Only the quotient of the phasor and `p w` enters the Jacobi-Anger coefficients. -/
theorem jaFull_quot (v : ℂ) (w : ℝ) (p : ℕ) (n : ℤ) : jaFull v w p n = jaFull (v / ((p * w : ℝ) : ℂ)) 1 1 n := by
  have h : ∀ (u : ℂ) (w : ℝ) (p : ℕ), jaFull u w p n
      = fcoef (fun s => exp (I * (‖u‖ / (p * w) : ℝ) * Real.sin (s - arg u))) n := fun u w p =>
    (fcoef_of_hasSum ((small_jaFull u w p).2 0 |> fun h => by simpa using h) (hasSum_jaFull u w p) n).symm
  rw [h v, h (v / _)]
  congr 1
  funext t
  have e : ∀ (u : ℂ) (w : ℝ) (p : ℕ), I * ((‖u‖ / (p * w) : ℝ) : ℂ) * (Real.sin (t - arg u) : ℂ)
      = I * ((1 / (p * w) * ((starRingEnd ℂ) u * exp (I * t)).im : ℝ) : ℂ) := by
    intro u w p
    rw [← norm_mul_sin u t]
    push_cast
    ring
  rw [e v, e (v / _)]
  congr 3
  rw [map_div₀, conj_ofReal, div_mul_eq_mul_div (_ : ℂ) _ (exp _), div_ofReal_im]
  simp only [Nat.cast_one, mul_one, div_one, one_mul]
  ring

theorem tendsto_jacobiAnger {v : T → ℂ} {w : T → ℝ} {v0 : ℂ} {w0 : ℝ} (hv : Tendsto v L (𝓝 v0)) (hw : Tendsto w L (𝓝 w0))
    (h0 : w0 ≠ 0) {p : ℕ} (hp : 1 ≤ p) (nb : ℕ) (n : ℤ) :
    Tendsto (fun t => jacobiAnger (v t) (w t) p nb n) L (𝓝 (jacobiAnger v0 w0 p nb n)) := by
  unfold jacobiAnger
  by_cases hn : |n| ≤ (nb : ℤ)
  · simp only [if_pos hn]
    change Tendsto (fun t => jaFull (v t) (w t) p n) L (𝓝 (jaFull v0 w0 p n))
    simp only [jaFull_quot _ _ p]
    have hp0 : (p : ℝ) ≠ 0 := by positivity
    have hq : Tendsto (fun t => v t / ((p * w t : ℝ) : ℂ)) L (𝓝 (v0 / ((p * w0 : ℝ) : ℂ))) := by
      refine hv.div ?_ (ofReal_ne_zero.2 (mul_ne_zero hp0 h0))
      exact (continuous_ofReal.tendsto _).comp (hw.const_mul _)
    rw [tendsto_iff_norm_sub_tendsto_zero] at hq ⊢
    refine squeeze_zero (fun _ => norm_nonneg _) (fun t => ?_) hq
    simpa using norm_jaFull_sub_le (v t / ((p * w t : ℝ) : ℂ)) (v0 / ((p * w0 : ℝ) : ℂ)) 1 1 n
  · simp only [if_neg hn]
    exact tendsto_const_nhds

theorem tendsto_harmonicConv (M : ℕ) {A : T → ℕ → ℤ → ℂ} {A0 : ℕ → ℤ → ℂ} (P : ℕ)
    (hA : ∀ p, 1 ≤ p → p ≤ P → ∀ l, Tendsto (fun t => A t p l) L (𝓝 (A0 p l))) (k : ℤ) :
    Tendsto (fun t => harmonicConv M (A t) P k) L (𝓝 (harmonicConv M A0 P k)) := by
  induction P generalizing k with
  | zero => exact tendsto_const_nhds
  | succ P ih =>
    simp only [harmonicConv]
    refine tendsto_finsetSum _ fun l _ => ?_
    split_ifs
    · exact (ih (fun p h1 h2 => hA p h1 (by omega)) _).mul (hA _ (by omega) le_rfl _)
    · exact tendsto_const_nhds

/-- A tone that depends on a parameter, and its limit. -/
structure LTone (T : Type) where
  C : T → ℤ → ℂ
  nb : ℕ
  w : T → ℝ
  C0 : ℤ → ℂ
  w0 : ℝ

def LTone.at (t : T) (y : LTone T) : Tone := ⟨y.C t, y.nb, y.w t⟩

def LTone.lim (y : LTone T) : Tone := ⟨y.C0, y.nb, y.w0⟩

def LTone.Good (L : Filter T) (y : LTone T) : Prop :=
  (∀ k, Tendsto (fun t => y.C t k) L (𝓝 (y.C0 k))) ∧ Tendsto y.w L (𝓝 y.w0)

/-- The shift of the bias voltage by `ks` quanta of the tones. -/
noncomputable def lshift : List (LTone T) → List ℤ → ℝ
  | y :: ys, k :: ks => k * y.w0 + lshift ys ks
  | _, _ => 0

theorem tendsto_corr {resp : ℝ → ℂ} (l : List (LTone T × ℤ)) (hl : ∀ y ∈ l, y.1.Good L) {v : T → ℝ} {v0 : ℝ}
    (hv : Tendsto v L (𝓝 v0)) (hr : ∀ ks : List ℤ, ks.length = l.length → ContinuousAt resp (v0 + lshift (l.map Prod.fst) ks)) :
    Tendsto (fun t => corr resp (l.map fun y => (y.1.at t, y.2)) (v t)) L (𝓝 (corr resp (l.map fun y => (y.1.lim, y.2)) v0)) := by
  induction l generalizing v v0 with
  | nil =>
    have := hr [] rfl
    simp only [List.map_nil, lshift, add_zero] at this
    exact this.tendsto.comp hv
  | cons y l ih =>
    simp only [List.map_cons, corr]
    have hy := hl y (.head _)
    refine tendsto_finsetSum _ fun k _ => ?_
    show Tendsto (fun t => if |k + y.2| ≤ (y.1.nb : ℤ) then y.1.C t k * (starRingEnd ℂ) (y.1.C t (k + y.2)) * corr resp _ (v t + k * y.1.w t) else 0) L
      (𝓝 (if |k + y.2| ≤ (y.1.nb : ℤ) then y.1.C0 k * (starRingEnd ℂ) (y.1.C0 (k + y.2)) * corr resp _ (v0 + k * y.1.w0) else 0))
    split_ifs
    · refine ((hy.1 k).mul ((continuous_conj.tendsto _).comp (hy.1 _))).mul ?_
      refine ih (fun z hz => hl z (.tail _ hz)) (hv.add (hy.2.const_mul _)) fun ks hk => ?_
      have := hr (k :: ks) (by simp [hk])
      simp only [List.map_cons, lshift] at this
      rwa [← add_assoc] at this
    · exact tendsto_const_nhds

theorem tendsto_mixProduct {resp : ℝ → ℂ} (l : List (LTone T × ℤ)) (hl : ∀ y ∈ l, y.1.Good L) {v : T → ℝ} {v0 : ℝ}
    (hv : Tendsto v L (𝓝 v0)) (hr : ∀ ks : List ℤ, ks.length = l.length → ContinuousAt resp (v0 + lshift (l.map Prod.fst) ks)) :
    Tendsto (fun t => mixProduct resp (l.map fun y => (y.1.at t, y.2)) (v t)) L
      (𝓝 (mixProduct resp (l.map fun y => (y.1.lim, y.2)) v0)) := by
  unfold mixProduct
  have hc : ∀ t : T, (∀ z ∈ l.map (fun y => (y.1.at t, y.2)), z.2 = 0) ↔ ∀ y ∈ l, y.2 = 0 := by
    intro t
    simp only [List.mem_map, forall_exists_index, and_imp, forall_apply_eq_imp_iff₂]
  have hc0 : (∀ z ∈ l.map (fun y => (y.1.lim, y.2)), z.2 = 0) ↔ ∀ y ∈ l, y.2 = 0 := by
    simp only [List.mem_map, forall_exists_index, and_imp, forall_apply_eq_imp_iff₂]
  simp only [hc, hc0]
  have h1 := tendsto_corr l hl hv hr
  split_ifs
  · exact (continuous_ofReal.tendsto _).comp ((continuous_im.tendsto _).comp h1)
  · have h2 := tendsto_corr (L := L) (resp := resp) (l.map fun y => (y.1, -y.2)) (by
      intro y hy
      obtain ⟨z, hz, rfl⟩ := List.mem_map.1 hy
      exact hl z hz) hv (by
      intro ks hk
      have := hr ks (by simpa using hk)
      simpa [List.map_map, Function.comp_def] using this)
    simp only [List.map_map, Function.comp_def] at h2 ⊢
    exact (h1.sub ((continuous_conj.tendsto _).comp h2)).const_mul _

theorem tendsto_boxSum (P : ℕ) (ts : List (LTone T)) {g : T → List (Tone × ℤ) → ℂ} {g0 : List (Tone × ℤ) → ℂ}
    (hg : ∀ as : List ℤ, as.length = ts.length → (∀ a ∈ as, |a| ≤ (P : ℤ)) →
      Tendsto (fun t => g t ((ts.zip as).map fun y => (y.1.at t, y.2))) L (𝓝 (g0 ((ts.zip as).map fun y => (y.1.lim, y.2))))) :
    Tendsto (fun t => boxSum P (ts.map (LTone.at t)) (g t)) L (𝓝 (boxSum P (ts.map LTone.lim) g0)) := by
  induction ts generalizing g g0 with
  | nil => simpa [boxSum] using hg [] rfl (by simp)
  | cons y ts ih =>
    simp only [List.map_cons, boxSum]
    refine tendsto_finsetSum _ fun a ha => ?_
    refine ih fun as h1 h2 => ?_
    have := hg (a :: as) (by simp [h1]) (by
      intro b hb
      rcases List.mem_cons.1 hb with rfl | hb
      · rw [mem_Icc] at ha
        exact abs_le.2 ha
      · exact h2 b hb)
    simpa only [List.zip_cons_cons, List.map_cons] using this

/-- The converging tones of a circuit. -/
noncomputable def ltones (v : T → ℕ → ℕ → ℂ) (freq : T → ℕ → ℝ) (v0 : ℕ → ℕ → ℂ) (freq0 : ℕ → ℝ) (P M : ℕ) : ℕ → List ℕ → List (LTone T)
  | _, [] => []
  | f, nb :: nbs => ⟨fun t => toneCoeff (v t f) (freq t f) P nb M, nb, fun t => freq t f, toneCoeff (v0 f) (freq0 f) P nb M, freq0 f⟩ ::
      ltones v freq v0 freq0 P M (f + 1) nbs

theorem ltones_at (v : T → ℕ → ℕ → ℂ) (freq : T → ℕ → ℝ) (v0 : ℕ → ℕ → ℂ) (freq0 : ℕ → ℝ) (P M f : ℕ) (nbs : List ℕ) (t : T) :
    (ltones v freq v0 freq0 P M f nbs).map (LTone.at t) = tonesFrom (v t) (freq t) P M f nbs := by
  induction nbs generalizing f with
  | nil => rfl
  | cons nb nbs ih =>
    simp only [ltones, tonesFrom, List.map_cons, ih]
    rfl

theorem ltones_lim (v : T → ℕ → ℕ → ℂ) (freq : T → ℕ → ℝ) (v0 : ℕ → ℕ → ℂ) (freq0 : ℕ → ℝ) (P M f : ℕ) (nbs : List ℕ) :
    (ltones v freq v0 freq0 P M f nbs).map LTone.lim = tonesFrom v0 freq0 P M f nbs := by
  induction nbs generalizing f with
  | nil => rfl
  | cons nb nbs ih =>
    simp only [ltones, tonesFrom, List.map_cons, ih]
    rfl

theorem length_ltones (v : T → ℕ → ℕ → ℂ) (freq : T → ℕ → ℝ) (v0 : ℕ → ℕ → ℂ) (freq0 : ℕ → ℝ) (P M f : ℕ) (nbs : List ℕ) :
    (ltones v freq v0 freq0 P M f nbs).length = nbs.length := by
  induction nbs generalizing f with
  | nil => rfl
  | cons nb nbs ih => simp [ltones, ih]

theorem lshift_ltones (v : T → ℕ → ℕ → ℂ) (freq : T → ℕ → ℝ) (v0 : ℕ → ℕ → ℂ) (freq0 : ℕ → ℝ) (P M f : ℕ) (nbs : List ℕ) (ks : List ℤ)
    (hk : ks.length = nbs.length) : lshift (ltones v freq v0 freq0 P M f nbs) ks = photonShift freq0 f ks := by
  induction nbs generalizing f ks with
  | nil =>
    rw [List.length_eq_zero_iff.1 hk]
    rfl
  | cons nb nbs ih =>
    obtain _ | ⟨k, ks⟩ := ks
    · simp at hk
    · simp only [ltones, lshift, photonShift]
      rw [ih (f + 1) ks (by simpa using hk)]

theorem ltones_good {v : T → ℕ → ℕ → ℂ} {freq : T → ℕ → ℝ} {v0 : ℕ → ℕ → ℂ} {freq0 : ℕ → ℝ} (P M f : ℕ) (nbs : List ℕ)
    (hv : ∀ g p, f ≤ g → g < f + nbs.length → 1 ≤ p → p ≤ P → Tendsto (fun t => v t g p) L (𝓝 (v0 g p)))
    (hw : ∀ g, f ≤ g → g < f + nbs.length → Tendsto (fun t => freq t g) L (𝓝 (freq0 g)) ∧ freq0 g ≠ 0) :
    ∀ y ∈ ltones v freq v0 freq0 P M f nbs, y.Good L := by
  induction nbs generalizing f with
  | nil => intro y hy; cases hy
  | cons nb nbs ih =>
    intro y hy
    rcases List.mem_cons.1 hy with rfl | hy
    · refine ⟨fun k => ?_, (hw f le_rfl (by simp)).1⟩
      exact tendsto_harmonicConv M P (fun p h1 h2 l => tendsto_jacobiAnger (hv f p le_rfl (by simp) h1 h2) (hw f le_rfl (by simp)).1
        (hw f le_rfl (by simp)).2 h1 nb l) k
    · exact ih (f + 1) (fun g p h1 h2 => hv g p (by omega) (by simp; omega)) (fun g h1 h2 => hw g (by omega) (by simp; omega)) y hy

theorem mixFreq_map_at (t : T) (ys : List (LTone T)) (as : List ℤ) :
    mixFreq ((ys.zip as).map fun y => (y.1.at t, y.2)) = mixFreq ((ys.map (LTone.at t)).zip as) := by
  congr 1
  rw [List.zip_map_left]
  rfl

theorem mixFreq_map_lim (ys : List (LTone T)) (as : List ℤ) :
    mixFreq ((ys.zip as).map fun y => (y.1.lim, y.2)) = mixFreq ((ys.map LTone.lim).zip as) := by
  congr 1
  rw [List.zip_map_left]
  rfl

/-- The current converges with its data, if the mixing products found at the requested frequency stay the same. -/
theorem tendsto_qt {resp : ℝ → ℂ} {v : T → ℕ → ℕ → ℂ} {freq : T → ℕ → ℝ} {v0 : ℕ → ℕ → ℂ} {freq0 : ℕ → ℝ} {numF P : ℕ} {tup : List ℕ}
    {vb x : T → ℝ} {vb0 x0 : ℝ} (hlen : numF ≤ tup.length)
    (hv : ∀ f p, 1 ≤ f → f ≤ numF → 1 ≤ p → p ≤ P → Tendsto (fun t => v t f p) L (𝓝 (v0 f p)))
    (hw : ∀ f, 1 ≤ f → f ≤ numF → Tendsto (fun t => freq t f) L (𝓝 (freq0 f)) ∧ freq0 f ≠ 0)
    (hb : Tendsto vb L (𝓝 vb0))
    (hr : ∀ ks : List ℤ, ks.length = numF → ContinuousAt resp (vb0 + photonShift freq0 1 ks))
    (hx : ∀ as : List ℤ, as.length = numF → (∀ a ∈ as, |a| ≤ (P : ℤ)) → ∀ᶠ t in L,
      (round4 (photonShift (freq t) 1 as) = round4 (x t) ↔ round4 (photonShift freq0 1 as) = round4 x0)) :
    Tendsto (fun t => qt resp (v t) (freq t) numF P tup (vb t) (x t)) L (𝓝 (qt resp v0 freq0 numF P tup vb0 x0)) := by
  unfold qt current
  set M := tup.foldr max 0
  set ts := ltones v freq v0 freq0 P M 1 (tup.take numF) with hts
  have hlt : (tup.take numF).length = numF := by rw [List.length_take]; omega
  have hl : ts.length = numF := by rw [hts, length_ltones, hlt]
  have hgood : ∀ y ∈ ts, y.Good L := ltones_good P M 1 _ (fun g p h1 h2 => hv g p h1 (by omega)) (fun g h1 h2 => hw g h1 (by omega))
  have key := tendsto_boxSum (L := L) P ts
    (g := fun t l => if round4 (mixFreq l) = round4 (x t) then mixProduct resp l (vb t) else 0)
    (g0 := fun l => if round4 (mixFreq l) = round4 x0 then mixProduct resp l vb0 else 0) (by
    intro as h1 h2
    have hfst : (ts.zip as).map Prod.fst = ts := List.map_fst_zip (by omega)
    have hm := tendsto_mixProduct (L := L) (resp := resp) (ts.zip as) (fun y hy => hgood _ (List.of_mem_zip hy).1) hb (by
      intro ks hk
      rw [hfst, hts, lshift_ltones _ _ _ _ _ _ _ _ _ (by rw [hk, List.length_zip, hl, h1, hl, min_self, hlt])]
      exact hr ks (by rw [hk, List.length_zip, hl, h1, hl, min_self]))
    have e1 : ∀ t, mixFreq ((ts.zip as).map fun y => (y.1.at t, y.2)) = photonShift (freq t) 1 as := by
      intro t
      rw [mixFreq_map_at, hts, ltones_at]
      exact mixFreq_zip _ _ _ _ _ _ _ (by omega)
    have e2 : mixFreq ((ts.zip as).map fun y => (y.1.lim, y.2)) = photonShift freq0 1 as := by
      rw [mixFreq_map_lim, hts, ltones_lim]
      exact mixFreq_zip _ _ _ _ _ _ _ (by omega)
    simp only [e1, e2]
    by_cases hc : round4 (photonShift freq0 1 as) = round4 x0
    · rw [if_pos hc]
      refine hm.congr' ?_
      filter_upwards [hx as (by omega) h2] with t ht
      rw [if_pos (ht.2 hc)]
    · rw [if_neg hc]
      refine tendsto_const_nhds.congr' ?_
      filter_upwards [hx as (by omega) h2] with t ht
      rw [if_neg fun h => hc (ht.1 h)])
  simp only [hts, ltones_at, ltones_lim] at key
  exact key

end QMix.Spec
