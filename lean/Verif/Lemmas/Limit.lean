import Verif.Lemmas.Phase
import Verif.Lemmas.Mtsda

/-! Convergence of the truncated current to the full one. -/

namespace QMix

open Complex Filter Topology Finset Spec

/-- At most polynomial growth, of degree `m`. -/
def Growth (m : ℕ) (resp : ℝ → ℂ) : Prop := ∃ K, 0 ≤ K ∧ ∀ v, ‖resp v‖ ≤ K * (1 + |v|) ^ m

/-- Tones `τ t` whose coefficients tend to those of `τ∞`, dominated by a sequence that falls fast,
while the summation limits grow without bound. -/
structure ToneLim {T : Type*} (𝓕 : Filter T) (τ : T → Tone) (L : Tone) : Prop where
  dom : ∃ D, Small D ∧ (∀ t k, ‖(τ t).C k‖ ≤ D k) ∧ ∀ k, ‖L.C k‖ ≤ D k
  lim : ∀ k, Tendsto (fun t => (τ t).C k) 𝓕 (𝓝 (L.C k))
  nb : Tendsto (fun t => (τ t).nb) 𝓕 atTop
  w : ∀ t, (τ t).w = L.w

variable {T : Type*} {𝓕 : Filter T}

theorem one_add_abs_add_le (v w : ℝ) (k : ℤ) :
    1 + |v + k * w| ≤ (1 + |w|) * (1 + |v|) * (1 + |(k : ℝ)|) := by
  have h1 := abs_add_le v (k * w)
  rw [abs_mul] at h1
  have a := abs_nonneg v
  have b := abs_nonneg w
  have c := abs_nonneg (k : ℝ)
  have := mul_nonneg a b
  have := mul_nonneg a c
  have := mul_nonneg b c
  have := mul_nonneg (mul_nonneg b a) c
  nlinarith

/-- Domination of one term of the correlation. -/
theorem term_le {D : ℤ → ℝ} (hD : Small D) {B : ℝ} (hB : ∀ k : ℤ, D k ≤ B) {K : ℝ} {m : ℕ}
    (hK : 0 ≤ K) {x y r : ℂ} {v w : ℝ} {k j : ℤ} (hx : ‖x‖ ≤ D k) (hy : ‖y‖ ≤ D j)
    (hr : ‖r‖ ≤ K * (1 + |v + k * w|) ^ m) :
    ‖x * (starRingEnd ℂ) y * r‖ ≤ (B * K * (1 + |w|) ^ m * (1 + |v|) ^ m) * ((1 + |(k : ℝ)|) ^ m * D k) := by
  have hB0 : 0 ≤ B := (hD.nonneg j).trans (hB j)
  rw [norm_mul, norm_mul, RCLike.norm_conj]
  calc ‖x‖ * ‖y‖ * ‖r‖ ≤ D k * B * (K * ((1 + |w|) * (1 + |v|) * (1 + |(k : ℝ)|)) ^ m) := by
        refine mul_le_mul (mul_le_mul hx (hy.trans (hB j)) (norm_nonneg _) (hD.nonneg k)) (hr.trans ?_) (norm_nonneg _)
          (mul_nonneg (hD.nonneg k) hB0)
        exact mul_le_mul_of_nonneg_left (pow_le_pow_left₀ (by positivity) (one_add_abs_add_le v w k) m) hK
    _ = _ := by rw [mul_pow, mul_pow]; ring

theorem corr_bound {resp : ℝ → ℂ} {m : ℕ} (hr : Growth m resp) {ts : List (T → Tone)} {Ls : List Tone}
    (h : List.Forall₂ (ToneLim 𝓕) ts Ls) (as : List ℤ) :
    ∃ K, 0 ≤ K ∧ ∀ t v, ‖corr resp ((ts.map (· t)).zip as) v‖ ≤ K * (1 + |v|) ^ m := by
  induction h generalizing as with
  | nil =>
    obtain ⟨K, hK, h⟩ := hr
    exact ⟨K, hK, fun t v => by simpa [corr] using h v⟩
  | @cons τ L ts Ls h1 _ ih =>
    cases as with
    | nil =>
      obtain ⟨K, hK, h⟩ := hr
      exact ⟨K, hK, fun t v => by simpa [corr] using h v⟩
    | cons a as =>
      obtain ⟨K, hK, h⟩ := ih as
      obtain ⟨D, hD, hd, -⟩ := h1.dom
      obtain ⟨B, hB0, hB'⟩ := hD.bounded 0
      have hB : ∀ k : ℤ, D k ≤ B := fun k => by simpa using hB' k
      refine ⟨(B * K * (1 + |L.w|) ^ m) * ∑' k : ℤ, (1 + |(k : ℝ)|) ^ m * D k, ?_, fun t v => ?_⟩
      · have : 0 ≤ ∑' k : ℤ, (1 + |(k : ℝ)|) ^ m * D k := tsum_nonneg fun k => mul_nonneg (by positivity) (hD.nonneg k)
        positivity
      · simp only [List.map_cons, List.zip_cons_cons, corr]
        have hs := (hD.summable m).mul_left (B * K * (1 + |L.w|) ^ m * (1 + |v|) ^ m)
        have h0 : ∀ k : ℤ, 0 ≤ (B * K * (1 + |L.w|) ^ m * (1 + |v|) ^ m) * ((1 + |(k : ℝ)|) ^ m * D k) := fun k =>
          mul_nonneg (by positivity) (mul_nonneg (by positivity) (hD.nonneg k))
        refine (norm_sum_le _ _).trans ((Finset.sum_le_sum fun k _ => ?_).trans ((hs.sum_le_tsum _ fun k _ => h0 k).trans_eq ?_))
        · split_ifs
          · refine term_le hD hB hK (hd t k) (hd t _) ?_
            rw [← h1.w t]
            exact h t _
          · rw [norm_zero]
            exact h0 k
        · rw [tsum_mul_left]
          ring

theorem tendsto_corr {resp : ℝ → ℂ} {m : ℕ} (hr : Growth m resp) {ts : List (T → Tone)} {Ls : List Tone}
    (h : List.Forall₂ (ToneLim 𝓕) ts Ls) (as : List ℤ) (v : ℝ) :
    Tendsto (fun t => corr resp ((ts.map (· t)).zip as) v) 𝓕 (𝓝 (corrFull resp (Ls.zip as) v)) := by
  induction h generalizing as v with
  | nil => simpa [corr, corrFull] using tendsto_const_nhds
  | @cons τ L ts Ls h1 h2 ih =>
    cases as with
    | nil => simpa [corr, corrFull] using tendsto_const_nhds
    | cons a as =>
      obtain ⟨K, hK, hb⟩ := corr_bound hr h2 as
      obtain ⟨D, hD, hd, -⟩ := h1.dom
      obtain ⟨B, hB0, hB'⟩ := hD.bounded 0
      have hB : ∀ k : ℤ, D k ≤ B := fun k => by simpa using hB' k
      simp only [List.map_cons, List.zip_cons_cons, corr, corrFull, h1.w]
      have hs := (hD.summable m).mul_left (B * K * (1 + |L.w|) ^ m * (1 + |v|) ^ m)
      have h0 : ∀ k : ℤ, 0 ≤ (B * K * (1 + |L.w|) ^ m * (1 + |v|) ^ m) * ((1 + |(k : ℝ)|) ^ m * D k) := fun k =>
        mul_nonneg (by positivity) (mul_nonneg (by positivity) (hD.nonneg k))
      let f : T → ℤ → ℂ := fun t k => if k ∈ Icc (-((τ t).nb : ℤ)) (τ t).nb then
        (if |k + a| ≤ (τ t).nb then (τ t).C k * (starRingEnd ℂ) ((τ t).C (k + a)) *
          corr resp ((ts.map (· t)).zip as) (v + k * L.w) else 0) else 0
      have hf : ∀ t, ∑ k ∈ Icc (-((τ t).nb : ℤ)) (τ t).nb, (if |k + a| ≤ (τ t).nb then
          (τ t).C k * (starRingEnd ℂ) ((τ t).C (k + a)) *
          corr resp ((ts.map (· t)).zip as) (v + k * L.w) else 0) = ∑' k, f t k := by
        intro t
        rw [tsum_eq_sum (s := Icc (-((τ t).nb : ℤ)) (τ t).nb) (fun l hl => if_neg hl)]
        exact Finset.sum_congr rfl fun l hl => (if_pos hl).symm
      simp only [hf]
      refine tendsto_tsum_of_dominated_convergence hs (fun k => ?_) (Eventually.of_forall fun t k => ?_)
      · refine (((h1.lim k).mul ((h1.lim (k + a)).star)).mul (ih as (v + k * L.w))).congr' ?_
        filter_upwards [h1.nb.eventually_ge_atTop k.natAbs, h1.nb.eventually_ge_atTop (k + a).natAbs] with t h3 h4
        show _ = if _ then _ else _
        rw [if_pos (Finset.mem_Icc.2 (by omega)), if_pos (by rw [Int.abs_eq_natAbs]; exact_mod_cast h4)]
        rfl
      · show ‖if _ then _ else _‖ ≤ _
        split_ifs
        · exact term_le hD hB hK (hd t k) (hd t _) (hb t _)
        · rw [norm_zero]
          exact h0 k
        · rw [norm_zero]
          exact h0 k

theorem zip_neg {α : Type*} (l : List α) (as : List ℤ) :
    ((l.zip as).map fun x => (x.1, -x.2)) = l.zip (as.map fun a => -a) := by
  induction l generalizing as with
  | nil => rfl
  | cons x l ih =>
    cases as with
    | nil => rfl
    | cons a as => simp [ih]

theorem zip_zero_iff {α : Type*} {l : List α} {as : List ℤ} (h : as.length = l.length) :
    (∀ x ∈ l.zip as, x.2 = 0) ↔ ∀ a ∈ as, a = 0 := by
  induction l generalizing as with
  | nil => simp_all
  | cons x l ih =>
    cases as with
    | nil => simp at h
    | cons a as => rw [List.zip_cons_cons, List.forall_mem_cons, List.forall_mem_cons, ih (by simpa using h)]

theorem tendsto_mixProduct {resp : ℝ → ℂ} {m : ℕ} (hr : Growth m resp) {ts : List (T → Tone)} {Ls : List Tone}
    (h : List.Forall₂ (ToneLim 𝓕) ts Ls) (as : List ℤ) (has : as.length = ts.length) (v : ℝ) :
    Tendsto (fun t => mixProduct resp ((ts.map (· t)).zip as) v) 𝓕 (𝓝 (mixFull resp (Ls.zip as) v)) := by
  unfold mixProduct mixFull
  have hz : ∀ t, (∀ x ∈ (ts.map (· t)).zip as, x.2 = 0) ↔ ∀ a ∈ as, a = 0 := fun t =>
    zip_zero_iff (by rw [List.length_map, has])
  have hz' : (∀ x ∈ Ls.zip as, x.2 = 0) ↔ ∀ a ∈ as, a = 0 := zip_zero_iff (by rw [has, h.length_eq])
  simp only [hz, hz', zip_neg]
  split_ifs
  · exact (continuous_ofReal.tendsto _).comp ((continuous_im.tendsto _).comp (tendsto_corr hr h as v))
  · exact ((tendsto_corr hr h as v).sub (tendsto_corr hr h (as.map fun a => -a) v).star).const_mul _

theorem mixFreq_lim {ts : List (T → Tone)} {Ls : List Tone} (h : List.Forall₂ (ToneLim 𝓕) ts Ls) (as : List ℤ) (t : T) :
    mixFreq ((ts.map (· t)).zip as) = mixFreq (Ls.zip as) := by
  unfold mixFreq
  induction h generalizing as with
  | nil => rfl
  | cons h1 _ ih =>
    cases as with
    | nil => rfl
    | cons a as => simp [h1.w, ih]

theorem tendsto_boxSum {P : ℕ} {ts : List (T → Tone)} {Ls : List Tone} (h : List.Forall₂ (ToneLim 𝓕) ts Ls)
    {g : T → List (Tone × ℤ) → ℂ} {g' : List (Tone × ℤ) → ℂ}
    (hg : ∀ as : List ℤ, as.length = ts.length →
      Tendsto (fun t => g t ((ts.map (· t)).zip as)) 𝓕 (𝓝 (g' (Ls.zip as)))) :
    Tendsto (fun t => boxSum P (ts.map (· t)) (g t)) 𝓕 (𝓝 (boxSum P Ls g')) := by
  induction h generalizing g g' with
  | nil => simpa [boxSum] using hg [] rfl
  | @cons τ L ts Ls h1 _ ih =>
    simp only [List.map_cons, boxSum]
    refine tendsto_finsetSum _ fun a _ => ?_
    refine ih (g := fun t l => g t ((τ t, a) :: l)) (g' := fun l => g' ((L, a) :: l)) fun as has => ?_
    simpa using hg (a :: as) (by simp [has])

/-- The truncated current tends to the full one. -/
theorem tendsto_current {resp : ℝ → ℂ} {m : ℕ} (hr : Growth m resp) {ts : List (T → Tone)} {Ls : List Tone}
    (h : List.Forall₂ (ToneLim 𝓕) ts Ls) (P : ℕ) (v f : ℝ) :
    Tendsto (fun t => current resp P (ts.map (· t)) v f) 𝓕 (𝓝 (currentFull resp P Ls v f)) := by
  unfold current currentFull
  refine tendsto_boxSum h fun as has => ?_
  simp only [mixFreq_lim h]
  split_ifs
  · exact tendsto_mixProduct hr h as has v
  · exact tendsto_const_nhds

theorem toneLim_coeff {nb M : T → ℕ} (hnb : Tendsto nb 𝓕 atTop) (hM : Tendsto M 𝓕 atTop) (v : ℕ → ℂ) (w : ℝ) (P : ℕ) :
    ToneLim 𝓕 (fun t => ⟨toneCoeff v w P (nb t) (M t), nb t, w⟩) ⟨phaseCoeff v w P, 0, w⟩ := by
  have hl := fun k => tendsto_harmonicConv hnb hM v w P k
  refine ⟨⟨fun k => coeffBound v w P k + ‖phaseCoeff v w P k‖, ?_, fun t k => ?_, fun k => ?_⟩, hl, hnb, fun _ => rfl⟩
  · exact (small_coeffBound v w P).add (small_phaseCoeff v w P)
  · exact (norm_harmonicConv_le v w _ _ P k).trans (le_add_of_nonneg_right (norm_nonneg _))
  · exact le_add_of_nonneg_left ((small_coeffBound v w P).nonneg k)

/-- The tones of `tonesFrom` as functions of the tuple of summation limits. -/
noncomputable def toneFuns (v : ℕ → ℕ → ℂ) (freq : ℕ → ℝ) (P : ℕ) (M : T → ℕ) (nb : T → ℕ → ℕ) : ℕ → ℕ → ℕ → List (T → Tone)
  | _, _, 0 => []
  | f, j, n + 1 => (fun t => ⟨toneCoeff (v f) (freq f) P (nb t j) (M t), nb t j, freq f⟩) ::
      toneFuns v freq P M nb (f + 1) (j + 1) n

theorem toneFuns_eq (v : ℕ → ℕ → ℂ) (freq : ℕ → ℝ) (P : ℕ) (M : T → ℕ) (nb : T → ℕ → ℕ) (n f j : ℕ) (t : T) (tup : List ℕ)
    (hlen : tup.length = n) (h : ∀ i, i < n → nb t (j + i) = tup.getD i 0) :
    (toneFuns v freq P M nb f j n).map (· t) = tonesFrom v freq P (M t) f tup := by
  induction n generalizing f j tup with
  | zero =>
    cases tup with
    | nil => rfl
    | cons => simp at hlen
  | succ n ih =>
    cases tup with
    | nil => simp at hlen
    | cons x tup =>
      have h0 : nb t j = x := by simpa using h 0 (by omega)
      simp only [toneFuns, List.map_cons, tonesFrom, h0]
      congr 1
      refine ih (f + 1) (j + 1) tup (by simpa using hlen) fun i hi => ?_
      have := h (i + 1) (by omega)
      rw [show j + 1 + i = j + (i + 1) by omega, this]
      rfl

theorem toneFuns_lim (v : ℕ → ℕ → ℂ) (freq : ℕ → ℝ) (P : ℕ) (M : T → ℕ) (nb : T → ℕ → ℕ) (n f j : ℕ)
    (hM : Tendsto M 𝓕 atTop) (hnb : ∀ i, i < n → Tendsto (fun t => nb t (j + i)) 𝓕 atTop) :
    List.Forall₂ (ToneLim 𝓕) (toneFuns v freq P M nb f j n) (tonesFull v freq P f n) := by
  induction n generalizing f j with
  | zero => exact .nil
  | succ n ih =>
    refine .cons (toneLim_coeff (by simpa using hnb 0 (by omega)) hM _ _ _) (ih (f + 1) (j + 1) fun i hi => ?_)
    have := hnb (i + 1) (by omega)
    simpa [Nat.add_assoc, Nat.add_comm 1] using this

/-- The current of the specification tends to the full one along tuples of growing limits. -/
theorem tendsto_qt {resp : ℝ → ℂ} {m : ℕ} (hr : Growth m resp) (v : ℕ → ℕ → ℂ) (freq : ℕ → ℝ) (numF P : ℕ) (hF : 1 ≤ numF)
    (vb f : ℝ) {tup : T → List ℕ} (hlen : ∀ t, numF ≤ (tup t).length)
    (hnb : ∀ i, i < numF → Tendsto (fun t => (tup t).getD i 0) 𝓕 atTop) :
    Tendsto (fun t => qt resp v freq numF P (tup t) vb f) 𝓕 (𝓝 (qtFull resp v freq numF P vb f)) := by
  have hM : Tendsto (fun t => (tup t).foldr max 0) 𝓕 atTop := by
    refine tendsto_atTop_mono (fun t => ?_) (hnb 0 (by omega))
    cases tup t with
    | nil => simp
    | cons x l => simp
  have h := tendsto_current hr (toneFuns_lim v freq P (fun t => (tup t).foldr max 0) (fun t j => (tup t).getD j 0) numF 1 0 hM
    (by simpa using hnb)) P vb f
  refine h.congr fun t => ?_
  unfold qt
  rw [toneFuns_eq v freq P _ _ numF 1 0 t ((tup t).take numF) (by rw [List.length_take]; exact min_eq_left (hlen t))]
  intro i hi
  rw [Nat.zero_add, List.getD_eq_getElem?_getD, List.getD_eq_getElem?_getD, List.getElem?_take, if_pos hi]

end QMix
