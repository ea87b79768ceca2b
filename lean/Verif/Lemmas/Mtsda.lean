import Verif.Spec.Mtsda
import Verif.Lemmas.Py
import Verif.Lemmas.Bessel

/-! Facts about the specification of the tunnelling current. -/

namespace QMix.Spec

open Complex Finset

/-! ### sums over all orders -/

theorem boxSum_congr (P : ℕ) (ts : List Tone) {g h : List (Tone × ℤ) → ℂ}
    (e : ∀ l, l.map Prod.fst = ts → g l = h l) : boxSum P ts g = boxSum P ts h := by
  induction ts generalizing g h with
  | nil => exact e [] rfl
  | cons t ts ih =>
    refine sum_congr rfl fun a _ => ih fun l hl => e _ ?_
    rw [List.map_cons, hl]

theorem boxSum_zero (P : ℕ) (ts : List Tone) : boxSum P ts (fun _ => 0) = 0 := by
  induction ts with
  | nil => rfl
  | cons t ts ih => exact sum_eq_zero fun a _ => ih

theorem boxSum_add (P : ℕ) (ts : List Tone) (g h : List (Tone × ℤ) → ℂ) :
    boxSum P ts (fun l => g l + h l) = boxSum P ts g + boxSum P ts h := by
  induction ts generalizing g h with
  | nil => rfl
  | cons t ts ih =>
    unfold boxSum
    rw [← sum_add_distrib]
    exact sum_congr rfl fun a _ => ih _ _

theorem boxSum_mul (P : ℕ) (ts : List Tone) (c : ℂ) (g : List (Tone × ℤ) → ℂ) :
    boxSum P ts (fun l => c * g l) = c * boxSum P ts g := by
  induction ts generalizing g with
  | nil => rfl
  | cons t ts ih =>
    unfold boxSum
    rw [mul_sum]
    exact sum_congr rfl fun a _ => ih _

theorem boxSum_conj (P : ℕ) (ts : List Tone) (g : List (Tone × ℤ) → ℂ) :
    boxSum P ts (fun l => (starRingEnd ℂ) (g l)) = (starRingEnd ℂ) (boxSum P ts g) := by
  induction ts generalizing g with
  | nil => rfl
  | cons t ts ih =>
    unfold boxSum
    rw [map_sum]
    exact sum_congr rfl fun a _ => ih _

/-- Negating all orders. -/
def negOrders (l : List (Tone × ℤ)) : List (Tone × ℤ) := l.map fun x => (x.1, -x.2)

theorem negOrders_negOrders (l : List (Tone × ℤ)) : negOrders (negOrders l) = l := by
  simp [negOrders, Function.comp_def]

theorem sum_Icc_neg (P : ℕ) (g : ℤ → ℂ) :
    ∑ a ∈ Icc (-(P : ℤ)) P, g (-a) = ∑ a ∈ Icc (-(P : ℤ)) P, g a := by
  refine sum_nbij' (fun a => -a) (fun a => -a) ?_ ?_ ?_ ?_ ?_ <;> intro a ha <;>
    simp only [mem_Icc, neg_neg] at * <;> try omega

theorem boxSum_neg (P : ℕ) (ts : List Tone) (g : List (Tone × ℤ) → ℂ) :
    boxSum P ts (fun l => g (negOrders l)) = boxSum P ts g := by
  induction ts generalizing g with
  | nil => rfl
  | cons t ts ih =>
    unfold boxSum
    rw [← sum_Icc_neg]
    refine sum_congr rfl fun a _ => ?_
    rw [← ih]
    refine boxSum_congr P ts fun l _ => ?_
    change g ((t, - -a) :: negOrders (negOrders l)) = _
    rw [neg_neg, negOrders_negOrders]

theorem mixFreq_neg (l : List (Tone × ℤ)) : mixFreq (negOrders l) = -mixFreq l := by
  induction l with
  | nil => simp [mixFreq, negOrders]
  | cons x l ih =>
    simp only [mixFreq, negOrders, List.map_cons, List.sum_cons] at *
    rw [ih]; push_cast; ring

theorem mixProduct_neg (resp : ℝ → ℂ) (l : List (Tone × ℤ)) (v : ℝ) :
    mixProduct resp (negOrders l) v = (starRingEnd ℂ) (mixProduct resp l v) := by
  unfold mixProduct
  have hz : (∀ x ∈ negOrders l, x.2 = 0) ↔ ∀ x ∈ l, x.2 = 0 := by
    simp only [negOrders, List.mem_map]
    constructor
    · intro h x hx
      exact neg_eq_zero.1 (h (x.1, -x.2) ⟨x, hx, rfl⟩)
    · rintro h x ⟨y, hy, rfl⟩
      exact neg_eq_zero.2 (h y hy)
  by_cases h : ∀ x ∈ l, x.2 = 0
  · rw [if_pos (hz.2 h), if_pos h, conj_ofReal]
    have : negOrders l = l := by
      unfold negOrders
      rw [List.map_congr_left (g := id), List.map_id]
      intro x hx; simp [h x hx, Prod.ext_iff]
    rw [this]
  · rw [if_neg (fun h' => h (hz.1 h')), if_neg h]
    change -I * (corr resp (negOrders l) v - (starRingEnd ℂ) (corr resp (negOrders (negOrders l)) v))
      = (starRingEnd ℂ) (-I * (corr resp l v - (starRingEnd ℂ) (corr resp (negOrders l) v)))
    rw [negOrders_negOrders]
    simp
    ring

theorem round4_neg_eq_neg {x y : ℝ} : round4 (-x) = round4 (-y) ↔ round4 x = round4 y := by
  rw [round4_neg, round4_neg, neg_inj]

/-- The current at the negative frequency is the conjugate. -/
theorem current_neg (resp : ℝ → ℂ) (P : ℕ) (ts : List Tone) (v f : ℝ) :
    current resp P ts v (-f) = (starRingEnd ℂ) (current resp P ts v f) := by
  unfold current
  rw [← boxSum_conj, ← boxSum_neg]
  refine boxSum_congr P ts fun l _ => ?_
  rw [mixFreq_neg, mixProduct_neg]
  simp only [round4_neg_eq_neg]
  split_ifs <;> simp

/-! ### undriven tones -/

/-- A tone whose phase factor is 1. -/
def Undriven (t : Tone) : Prop := ∀ k : ℤ, |k| ≤ t.nb → t.C k = if k = 0 then 1 else 0

theorem corr_undriven (resp : ℝ → ℂ) {t : Tone} (ht : Undriven t) (a : ℤ) (l : List (Tone × ℤ))
    (v : ℝ) : corr resp ((t, a) :: l) v = if a = 0 then corr resp l v else 0 := by
  rw [corr, sum_eq_single 0]
  · have h0 : t.C 0 = 1 := by rw [ht 0 (by simp), if_pos rfl]
    rw [zero_add]
    by_cases ha : a = 0
    · subst ha; simp [h0]
    · rw [if_neg ha]
      split_ifs with h
      · rw [ht a h, if_neg ha]; simp
      · rfl
  · intro k hk hk0
    rw [mem_Icc, ← abs_le] at hk
    rw [ht k hk, if_neg hk0]; simp
  · intro h; exact absurd (mem_Icc.2 (by constructor <;> simp)) h

theorem mixProduct_undriven (resp : ℝ → ℂ) {t : Tone} (ht : Undriven t) (a : ℤ)
    (l : List (Tone × ℤ)) (v : ℝ) :
    mixProduct resp ((t, a) :: l) v = if a = 0 then mixProduct resp l v else 0 := by
  unfold mixProduct
  rw [List.map_cons, corr_undriven resp ht, corr_undriven resp ht]
  by_cases ha : a = 0
  · subst ha
    have hz : (∀ x ∈ (t, (0 : ℤ)) :: l, x.2 = 0) ↔ ∀ x ∈ l, x.2 = 0 := by
      rw [List.forall_mem_cons]; exact and_iff_right rfl
    by_cases h : ∀ x ∈ l, x.2 = 0
    · rw [if_pos (hz.2 h), if_pos rfl, if_pos rfl, if_pos h]
    · rw [if_neg (fun h' => h (hz.1 h')), if_pos rfl, if_pos rfl, if_neg h, if_pos neg_zero]
  · have hz : ¬ ∀ x ∈ (t, a) :: l, x.2 = 0 := fun h => ha (h (t, a) (by simp))
    rw [if_neg hz, if_neg ha, if_neg ha, if_neg (by simpa using ha)]; simp

theorem current_undriven (resp : ℝ → ℂ) (P : ℕ) {t : Tone} (ht : Undriven t) (ts : List Tone)
    (v f : ℝ) : current resp P (t :: ts) v f = current resp P ts v f := by
  unfold current
  rw [boxSum, sum_eq_single 0]
  · refine boxSum_congr P ts fun l _ => ?_
    rw [mixProduct_undriven resp ht, if_pos rfl,
      show mixFreq ((t, 0) :: l) = mixFreq l by simp [mixFreq]]
  · intro a _ ha
    refine (boxSum_congr P ts fun l _ => ?_).trans (boxSum_zero P ts)
    rw [mixProduct_undriven resp ht, if_neg ha, ite_self]
  · intro h; exact absurd (mem_Icc.2 (by constructor <;> simp)) h

theorem current_nil (resp : ℝ → ℂ) (P : ℕ) (v f : ℝ) :
    current resp P [] v f = if round4 f = 0 then ((resp v).im : ℂ) else 0 := by
  unfold current boxSum mixFreq mixProduct corr
  simp [round4_zero, eq_comm]

theorem current_all_undriven (resp : ℝ → ℂ) (P : ℕ) (ts : List Tone) (h : ∀ t ∈ ts, Undriven t)
    (v f : ℝ) : current resp P ts v f = if round4 f = 0 then ((resp v).im : ℂ) else 0 := by
  induction ts with
  | nil => exact current_nil resp P v f
  | cons t ts ih =>
    rw [current_undriven resp P (h t (by simp)), ih fun t ht => h t (by simp [ht])]

theorem jacobiAnger_zero (w : ℝ) (p nb : ℕ) (n : ℤ) :
    jacobiAnger 0 w p nb n = if n = 0 then 1 else 0 := by
  unfold jacobiAnger
  by_cases h0 : n = 0
  · subst h0; simp [besselJ_zero_zero]
  · simp [h0, besselJ_zero_right]

/-- Convolving with a harmonic of zero voltage changes nothing in range. -/
theorem harmonicConv_undriven (M : ℕ) (A : ℕ → ℤ → ℂ) (p : ℕ)
    (h : ∀ n, A (p + 1) n = if n = 0 then 1 else 0) (k : ℤ) :
    harmonicConv M A (p + 1) k = if |k| ≤ M then harmonicConv M A p k else 0 := by
  rw [harmonicConv, sum_eq_single 0]
  · simp [h]
  · intro l _ hl; simp [h, hl]
  · intro h; exact absurd (mem_Icc.2 (by constructor <;> simp)) h

theorem toneCoeff_zero (v : ℕ → ℂ) (w : ℝ) (P nb M : ℕ) (hv : ∀ p, 1 ≤ p → p ≤ P → v p = 0)
    (k : ℤ) : toneCoeff v w P nb M k = if k = 0 then 1 else 0 := by
  unfold toneCoeff
  induction P generalizing k with
  | zero => rfl
  | succ P ih =>
    rw [harmonicConv_undriven]
    · rw [ih fun p h1 h2 => hv p h1 (by omega)]
      by_cases hk : k = 0
      · subst hk; simp
      · simp [hk]
    · intro n
      rw [hv (P + 1) (by omega) le_rfl, jacobiAnger_zero]

theorem undriven_of_zero (v : ℕ → ℂ) (w : ℝ) (P nb M : ℕ) (hv : ∀ p, 1 ≤ p → p ≤ P → v p = 0) :
    Undriven ⟨toneCoeff v w P nb M, nb, w⟩ := fun k _ => toneCoeff_zero v w P nb M hv k

/-! ### order of the tones -/

theorem boxSum_perm (P : ℕ) {ts ts' : List Tone} (h : ts.Perm ts') (g : List (Tone × ℤ) → ℂ)
    (hg : ∀ l l', l.Perm l' → g l = g l') : boxSum P ts g = boxSum P ts' g := by
  induction h generalizing g with
  | nil => rfl
  | cons t _ ih =>
    exact sum_congr rfl fun a _ => ih _ fun l l' hl => hg _ _ (hl.cons _)
  | swap t t' ts =>
    unfold boxSum
    unfold boxSum
    rw [sum_comm]
    refine sum_congr rfl fun a _ => sum_congr rfl fun b _ => boxSum_congr P ts fun l _ => ?_
    exact hg _ _ (List.Perm.swap _ _ _)
  | trans _ _ ih1 ih2 => rw [ih1 g hg, ih2 g hg]

theorem corr_perm (resp : ℝ → ℂ) {l l' : List (Tone × ℤ)} (h : l.Perm l') (v : ℝ) :
    corr resp l v = corr resp l' v := by
  induction h generalizing v with
  | nil => rfl
  | cons x _ ih =>
    unfold corr
    refine sum_congr rfl fun k _ => ?_
    rw [ih]
  | swap x y l =>
    obtain ⟨t, a⟩ := x
    obtain ⟨s, b⟩ := y
    simp only [corr]
    have e : ∀ (X : ℤ → Prop) [DecidablePred X] (c : ℤ → ℂ) (S : Finset ℤ) (f : ℤ → ℤ → ℂ)
        (T : Finset ℤ), ∑ k ∈ S, (if X k then c k * ∑ j ∈ T, f k j else 0)
          = ∑ k ∈ S, ∑ j ∈ T, if X k then c k * f k j else 0 := by
      intro X _ c S f T
      refine sum_congr rfl fun k _ => ?_
      split_ifs
      · rw [mul_sum]
      · simp
    rw [e, e, sum_comm]
    refine sum_congr rfl fun k _ => sum_congr rfl fun j _ => ?_
    by_cases h1 : |k + a| ≤ t.nb <;> by_cases h2 : |j + b| ≤ s.nb <;> simp only [h1, h2, if_true,
      if_false, mul_zero]
    rw [show v + k * t.w + j * s.w = v + j * s.w + k * t.w by ring]
    ring
  | trans _ _ ih1 ih2 => rw [ih1, ih2]

theorem mixProduct_perm (resp : ℝ → ℂ) {l l' : List (Tone × ℤ)} (h : l.Perm l') (v : ℝ) :
    mixProduct resp l v = mixProduct resp l' v := by
  unfold mixProduct
  rw [corr_perm resp h, corr_perm resp (h.map _)]
  have : (∀ x ∈ l, x.2 = 0) ↔ ∀ x ∈ l', x.2 = 0 := by simp only [h.mem_iff]
  simp only [this]

theorem current_perm (resp : ℝ → ℂ) (P : ℕ) {ts ts' : List Tone} (h : ts.Perm ts') (v f : ℝ) :
    current resp P ts v f = current resp P ts' v f := by
  refine boxSum_perm P h _ fun l l' hl => ?_
  rw [mixProduct_perm resp hl, show mixFreq l = mixFreq l' from (hl.map _).sum_eq]

/-! ### time shift -/

theorem jacobiAnger_shift (v : ℂ) (w φ : ℝ) (p nb : ℕ) (n : ℤ) :
    jacobiAnger (v * exp (I * φ)) w p nb n = exp (-I * n * φ) * jacobiAnger v w p nb n := by
  unfold jacobiAnger
  split_ifs
  · have hn : ‖v * exp (I * φ)‖ = ‖v‖ := by
      rw [norm_mul, mul_comm I, norm_exp_ofReal_mul_I, mul_one]
    by_cases hv : v = 0
    · subst hv
      by_cases h0 : n = 0
      · subst h0; simp
      · simp [besselJ_zero_right h0]
    · rw [hn]
      -- `exp (-i n arg z)` is `(z / |z|) ^ (-n)`
      have key : ∀ z : ℂ, z ≠ 0 → exp (-I * n * arg z) = (z / ‖z‖) ^ (-n) := by
        intro z hz
        have h1 : z / ‖z‖ = exp (arg z * I) := by
          have := norm_mul_exp_arg_mul_I z
          have hz' : (‖z‖ : ℂ) ≠ 0 := by simpa using hz
          field_simp
          exact this.symm
        rw [h1, ← exp_int_mul]
        congr 1; push_cast; ring
      have hv' : v * exp (I * φ) ≠ 0 := mul_ne_zero hv (exp_ne_zero _)
      rw [key _ hv', key _ hv, hn, mul_div_right_comm, mul_zpow, ← exp_int_mul]
      have : ((-n : ℤ) : ℂ) * (I * φ) = -I * n * φ := by push_cast; ring
      rw [this]; ring
  · simp

theorem harmonicConv_shift (M : ℕ) (A B : ℕ → ℤ → ℂ) (θ : ℝ)
    (h : ∀ p n, B p n = exp (-I * n * (p * θ : ℝ)) * A p n) (p : ℕ) (k : ℤ) :
    harmonicConv M B p k = exp (-I * k * θ) * harmonicConv M A p k := by
  induction p generalizing k with
  | zero =>
    by_cases hk : k = 0
    · subst hk; simp [harmonicConv]
    · simp [harmonicConv, hk]
  | succ p ih =>
    simp only [harmonicConv]
    rw [mul_sum]
    refine sum_congr rfl fun l _ => ?_
    split_ifs
    · rw [ih, h, show ∀ a b c d : ℂ, a * b * (c * d) = (a * c) * (b * d) from fun _ _ _ _ => by ring,
        ← exp_add]
      congr 2
      push_cast; ring
    · simp

/-- Delaying a tone multiplies its coefficients by a phase. -/
theorem toneCoeff_shift (v : ℕ → ℂ) (w θ : ℝ) (P nb M : ℕ) (k : ℤ) :
    toneCoeff (fun p => v p * exp (I * (p * θ : ℝ))) w P nb M k
      = exp (-I * k * θ) * toneCoeff v w P nb M k := by
  unfold toneCoeff
  exact harmonicConv_shift M _ _ θ (fun p n => jacobiAnger_shift _ _ _ _ _ _) P k

/-- The tone delayed by the phase `θ`. -/
noncomputable def Tone.shift (t : Tone) (θ : ℝ) : Tone := ⟨fun k => exp (-I * k * θ) * t.C k, t.nb, t.w⟩

/-- Delay each tone by its phase. -/
noncomputable def shiftOrders (l : List ((Tone × ℤ) × ℝ)) : List (Tone × ℤ) :=
  l.map fun x => (x.1.1.shift x.2, x.1.2)

/-- Total phase of a mixing product. -/
noncomputable def phase (l : List ((Tone × ℤ) × ℝ)) : ℝ := (l.map fun x => (x.1.2 : ℝ) * x.2).sum

theorem corr_shift (resp : ℝ → ℂ) (l : List ((Tone × ℤ) × ℝ)) (v : ℝ) :
    corr resp (shiftOrders l) v = exp (I * phase l) * corr resp (l.map Prod.fst) v := by
  induction l generalizing v with
  | nil => simp [shiftOrders, phase, corr]
  | cons x l ih =>
    obtain ⟨⟨t, a⟩, θ⟩ := x
    have e : shiftOrders (((t, a), θ) :: l) = (t.shift θ, a) :: shiftOrders l := rfl
    rw [e, List.map_cons]
    simp only [corr]
    rw [mul_sum]
    refine sum_congr rfl fun k _ => ?_
    change (if |k + a| ≤ t.nb then exp (-I * k * θ) * t.C k
      * (starRingEnd ℂ) (exp (-I * (k + a : ℤ) * θ) * t.C (k + a))
      * corr resp (shiftOrders l) (v + k * t.w) else 0) = _
    split_ifs
    · rw [ih, map_mul, ← exp_conj]
      have h1 : (starRingEnd ℂ) (-I * (k + a : ℤ) * θ) = I * (k + a : ℤ) * θ := by
        simp
      have h2 : phase (((t, a), θ) :: l) = a * θ + phase l := by
        simp [phase]
      rw [h1, h2]
      have h3 : exp (I * ((a * θ + phase l : ℝ) : ℂ))
          = exp (-I * k * θ) * exp (I * (k + a : ℤ) * θ) * exp (I * phase l) := by
        rw [← exp_add, ← exp_add]; congr 1; push_cast; ring
      rw [h3]; ring
    · simp

theorem phase_neg (l : List ((Tone × ℤ) × ℝ)) :
    phase (l.map fun x => ((x.1.1, -x.1.2), x.2)) = -phase l := by
  unfold phase
  induction l with
  | nil => simp
  | cons x l ih =>
    simp only [List.map_cons, List.sum_cons] at *
    rw [ih]; push_cast; ring

theorem mixProduct_shift (resp : ℝ → ℂ) (l : List ((Tone × ℤ) × ℝ)) (v : ℝ) :
    mixProduct resp (shiftOrders l) v = exp (I * phase l) * mixProduct resp (l.map Prod.fst) v := by
  unfold mixProduct
  have hz : (∀ x ∈ shiftOrders l, x.2 = 0) ↔ ∀ x ∈ l.map Prod.fst, x.2 = 0 := by
    simp only [shiftOrders, List.mem_map]
    constructor
    · rintro h x ⟨y, hy, rfl⟩; exact h (y.1.1.shift y.2, y.1.2) ⟨y, hy, rfl⟩
    · rintro h x ⟨y, hy, rfl⟩; exact h y.1 ⟨y, hy, rfl⟩
  by_cases h : ∀ x ∈ l.map Prod.fst, x.2 = 0
  · rw [if_pos (hz.2 h), if_pos h, corr_shift]
    have : phase l = 0 := by
      unfold phase
      apply List.sum_eq_zero
      intro x hx
      obtain ⟨y, hy, rfl⟩ := List.mem_map.1 hx
      rw [h y.1 (List.mem_map.2 ⟨y, hy, rfl⟩)]; simp
    rw [this]; simp
  · rw [if_neg (fun h' => h (hz.1 h')), if_neg h, corr_shift]
    have e1 : (shiftOrders l).map (fun x => (x.1, -x.2))
        = shiftOrders (l.map fun x => ((x.1.1, -x.1.2), x.2)) := by
      simp [shiftOrders, Function.comp_def]
    have e2 : (l.map fun x => ((x.1.1, -x.1.2), x.2)).map Prod.fst
        = (l.map Prod.fst).map fun x => (x.1, -x.2) := by
      simp [Function.comp_def]
    have e3 : phase (l.map fun x => ((x.1.1, -x.1.2), x.2)) = -phase l := by
      exact phase_neg l
    rw [e1, corr_shift, e2, e3, map_mul, ← exp_conj]
    have : (starRingEnd ℂ) (I * ((-phase l : ℝ) : ℂ)) = I * phase l := by simp
    rw [this]; ring

/-! ### linearity in the response function -/

theorem corr_linear (r1 r2 : ℝ → ℂ) (c : ℂ) (l : List (Tone × ℤ)) (v : ℝ) :
    corr (fun x => r1 x + c * r2 x) l v = corr r1 l v + c * corr r2 l v := by
  induction l generalizing v with
  | nil => rfl
  | cons x l ih =>
    simp only [corr, ih]
    rw [mul_sum, ← sum_add_distrib]
    refine sum_congr rfl fun k _ => ?_
    split_ifs
    · ring
    · simp

theorem mixProduct_linear (r1 r2 : ℝ → ℂ) (c : ℝ) (l : List (Tone × ℤ)) (v : ℝ) :
    mixProduct (fun x => r1 x + c * r2 x) l v = mixProduct r1 l v + c * mixProduct r2 l v := by
  unfold mixProduct
  rw [corr_linear, corr_linear]
  split_ifs
  · simp
  · rw [map_add, map_mul, conj_ofReal]; ring

theorem current_linear (r1 r2 : ℝ → ℂ) (c : ℝ) (P : ℕ) (ts : List Tone) (v f : ℝ) :
    current (fun x => r1 x + c * r2 x) P ts v f = current r1 P ts v f + c * current r2 P ts v f := by
  unfold current
  rw [← boxSum_mul, ← boxSum_add]
  refine boxSum_congr P ts fun l _ => ?_
  rw [mixProduct_linear]
  split_ifs <;> simp

/-! ### frequencies -/

/-- A frequency that no mixing product is close to carries no current. -/
theorem current_unmatched (resp : ℝ → ℂ) (P : ℕ) (ts : List Tone) (v f : ℝ)
    (h : ∀ l : List (Tone × ℤ), l.map Prod.fst = ts → (∀ x ∈ l, |x.2| ≤ P) →
      round4 (mixFreq l) ≠ round4 f) : current resp P ts v f = 0 := by
  unfold current
  suffices ∀ (ts : List Tone) (g : List (Tone × ℤ) → ℂ),
      (∀ l, l.map Prod.fst = ts → (∀ x ∈ l, |x.2| ≤ (P : ℤ)) → g l = 0) → boxSum P ts g = 0 from
    this ts _ fun l h1 h2 => if_neg (h l h1 h2)
  intro ts
  induction ts with
  | nil => intro g hg; exact hg [] rfl (by simp)
  | cons t ts ih =>
    intro g hg
    refine sum_eq_zero fun a ha => ih _ fun l h1 h2 => hg _ (by simp [h1]) ?_
    rw [mem_Icc, ← abs_le] at ha
    intro x hx
    rcases List.mem_cons.1 hx with rfl | hx
    · exact ha
    · exact h2 x hx

/-! ### summation limits of other tones -/

theorem jacobiAnger_out (v : ℂ) (w : ℝ) (p nb : ℕ) {n : ℤ} (h : ¬ |n| ≤ nb) :
    jacobiAnger v w p nb n = 0 := if_neg h

/-- With one harmonic the convolution is the Jacobi-Anger sequence itself. -/
theorem harmonicConv_one (v : ℕ → ℂ) (w : ℝ) (nb N : ℕ) (hN : nb ≤ N) (k : ℤ) :
    harmonicConv N (fun p => jacobiAnger (v p) w p nb) 1 k = jacobiAnger (v 1) w 1 nb k := by
  by_cases hk : |k| ≤ nb
  · have hk' := abs_le.1 hk
    rw [harmonicConv, sum_eq_single k]
    · simp [harmonicConv]
    · intro l _ hl
      have : k - ((0 + 1 : ℕ) : ℤ) * l ≠ 0 := by push_cast; omega
      simp only [harmonicConv, if_neg this, zero_mul, ite_self]
    · intro h; exact absurd (mem_Icc.2 (by constructor <;> omega)) h
  · rw [jacobiAnger_out _ _ _ _ hk, harmonicConv]
    refine sum_eq_zero fun l _ => ?_
    simp only [harmonicConv]
    split_ifs with h3 h4
    · have : l = k := by push_cast at h4; omega
      rw [this]; simp [jacobiAnger_out _ _ _ _ hk]
    · simp
    · rfl

/-- With one or two harmonics the size of the arrays does not matter. -/
theorem toneCoeff_size (v : ℕ → ℂ) (w : ℝ) (P nb M M' : ℕ) (hP : P ≤ 2) (h1 : nb ≤ M)
    (h2 : nb ≤ M') (k : ℤ) :
    toneCoeff v w P nb M k = toneCoeff v w P nb M' k := by
  have one := harmonicConv_one v w nb
  unfold toneCoeff
  match P, hP with
  | 0, _ => rfl
  | 1, _ => rw [one M h1, one M' h2]
  | 2, _ =>
    have two : ∀ N, nb ≤ N → harmonicConv N (fun p => jacobiAnger (v p) w p nb) 2 k
        = ∑ l ∈ Icc (-(nb : ℤ)) nb, jacobiAnger (v 1) w 1 nb (k - 2 * l)
          * jacobiAnger (v 2) w 2 nb l := by
      intro N hN
      rw [harmonicConv]
      symm
      rw [← sum_subset (Icc_subset_Icc (neg_le_neg (by exact_mod_cast hN))
        (by exact_mod_cast hN) : Icc (-(nb : ℤ)) nb ⊆ Icc (-(N : ℤ)) N)]
      · refine sum_congr rfl fun l _ => ?_
        rw [one N hN]
        split_ifs with h3
        · rfl
        · rw [jacobiAnger_out, zero_mul]
          intro h4; apply h3
          push_cast at *
          have : (nb : ℤ) ≤ N := by exact_mod_cast hN
          omega
      · intro l _ hl
        rw [mem_Icc, ← abs_le] at hl
        rw [jacobiAnger_out (v (1 + 1)) w (1 + 1) nb hl]; simp
    rw [two M h1, two M' h2]

/-! ### lists of tones -/

theorem tonesFrom_append (v : ℕ → ℕ → ℂ) (freq : ℕ → ℝ) (P M f : ℕ) (l l' : List ℕ) :
    tonesFrom v freq P M f (l ++ l')
      = tonesFrom v freq P M f l ++ tonesFrom v freq P M (f + l.length) l' := by
  induction l generalizing f with
  | nil => rfl
  | cons x l ih =>
    simp only [tonesFrom, List.cons_append, List.length_cons]
    rw [ih, show f + 1 + l.length = f + (l.length + 1) by ring]

theorem tonesFrom_congr {v v' : ℕ → ℕ → ℂ} {freq freq' : ℕ → ℝ} (P M f : ℕ) (l : List ℕ)
    (hv : ∀ g p, f ≤ g → g < f + l.length → v g p = v' g p)
    (hf : ∀ g, f ≤ g → g < f + l.length → freq g = freq' g) :
    tonesFrom v freq P M f l = tonesFrom v' freq' P M f l := by
  induction l generalizing f with
  | nil => rfl
  | cons x l ih =>
    simp only [tonesFrom]
    have e1 : v f = v' f := funext fun p => hv f p le_rfl (by simp)
    rw [e1, hf f le_rfl (by simp), ih (f + 1)
      (fun g p h1 h2 => hv g p (by omega) (by simp; omega))
      (fun g h1 h2 => hf g (by omega) (by simp; omega))]

theorem tonesFrom_size (v : ℕ → ℕ → ℂ) (freq : ℕ → ℝ) (P M M' f : ℕ) (hP : P ≤ 2) (l : List ℕ)
    (h1 : ∀ n ∈ l, n ≤ M) (h2 : ∀ n ∈ l, n ≤ M') :
    tonesFrom v freq P M f l = tonesFrom v freq P M' f l := by
  induction l generalizing f with
  | nil => rfl
  | cons x l ih =>
    simp only [tonesFrom]
    rw [ih (f + 1) (fun n hn => h1 n (by simp [hn])) (fun n hn => h2 n (by simp [hn])),
      funext (toneCoeff_size (v f) (freq f) P x M M' hP (h1 x (by simp)) (h2 x (by simp)))]

theorem mixFreq_tonesFrom (v : ℕ → ℕ → ℂ) (freq : ℕ → ℝ) (P M f : ℕ) (nbs : List ℕ)
    (l : List (Tone × ℤ)) (h : l.map Prod.fst = tonesFrom v freq P M f nbs) :
    mixFreq l = photonShift freq f (l.map Prod.snd) := by
  induction nbs generalizing f l with
  | nil =>
    have : l = [] := by simpa [tonesFrom] using h
    subst this; simp [mixFreq, photonShift]
  | cons x nbs ih =>
    match l, h with
    | y :: l, h =>
      simp only [tonesFrom, List.map_cons, List.cons.injEq] at h
      have := ih (f + 1) l h.2
      simp only [mixFreq, List.map_cons, List.sum_cons, photonShift] at *
      rw [this, h.1]

theorem length_tonesFrom (v : ℕ → ℕ → ℂ) (freq : ℕ → ℝ) (P M f : ℕ) (nbs : List ℕ) :
    (tonesFrom v freq P M f nbs).length = nbs.length := by
  induction nbs generalizing f with
  | nil => rfl
  | cons x nbs ih => simp [tonesFrom, ih]

/-- The delays attached to a list of tones. -/
def withDelays (θ : ℕ → ℝ) : ℕ → List (Tone × ℤ) → List ((Tone × ℤ) × ℝ)
  | _, [] => []
  | f, x :: l => (x, θ f) :: withDelays θ (f + 1) l

theorem withDelays_fst (θ : ℕ → ℝ) (f : ℕ) (l : List (Tone × ℤ)) :
    (withDelays θ f l).map Prod.fst = l := by
  induction l generalizing f with
  | nil => rfl
  | cons x l ih => simp [withDelays, ih]

theorem phase_withDelays (θ : ℕ → ℝ) (f : ℕ) (l : List (Tone × ℤ)) :
    phase (withDelays θ f l) = delayPhase θ f l := by
  induction l generalizing f with
  | nil => simp [withDelays, phase, delayPhase]
  | cons x l ih =>
    have := ih (f + 1)
    simp only [withDelays, phase, delayPhase, List.map_cons, List.sum_cons] at *
    rw [this]

theorem boxSum_shift (θ : ℕ → ℝ) (v : ℕ → ℕ → ℂ) (freq : ℕ → ℝ) (P P' M f : ℕ) (nbs : List ℕ)
    (g : List (Tone × ℤ) → ℂ) :
    boxSum P' (tonesFrom (fun f p => v f p * exp (I * (p * θ f : ℝ))) freq P M f nbs) g
      = boxSum P' (tonesFrom v freq P M f nbs) fun l => g (shiftOrders (withDelays θ f l)) := by
  induction nbs generalizing f g with
  | nil => rfl
  | cons x nbs ih =>
    simp only [tonesFrom, boxSum]
    refine sum_congr rfl fun a _ => ?_
    rw [ih]
    refine boxSum_congr _ _ fun l _ => ?_
    simp only [withDelays, shiftOrders, List.map_cons, Tone.shift]
    congr 4
    funext k
    exact toneCoeff_shift _ _ _ _ _ _ k

theorem mixFreq_shift (l : List ((Tone × ℤ) × ℝ)) :
    mixFreq (shiftOrders l) = mixFreq (l.map Prod.fst) := by
  simp [mixFreq, shiftOrders, Function.comp_def, Tone.shift]

/-- Time-shift covariance of the current. -/
theorem current_shift (θ : ℕ → ℝ) (resp : ℝ → ℂ) (v : ℕ → ℕ → ℂ) (freq : ℕ → ℝ) (P M f : ℕ)
    (nbs : List ℕ) (vb fout : ℝ) :
    current resp P (tonesFrom (fun f p => v f p * exp (I * (p * θ f : ℝ))) freq P M f nbs) vb fout
      = boxSum P (tonesFrom v freq P M f nbs) fun l =>
        if round4 (mixFreq l) = round4 fout then
          exp (I * delayPhase θ f l) * mixProduct resp l vb else 0 := by
  unfold current
  rw [boxSum_shift]
  refine boxSum_congr _ _ fun l _ => ?_
  rw [mixFreq_shift, mixProduct_shift, withDelays_fst, phase_withDelays]

end QMix.Spec
