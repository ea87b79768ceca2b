import Verif.Lemmas.Rounding
import Verif.Spec.Binary64
import Verif.Props.Stable
import Verif.Props.Tol

/-! # C146: floating-point errors of `qtcurrent` -/

namespace QMix.Props

open Complex Finset QMix.Qt QMix.Rnd

variable {ι : Type}

/-- What the kernels of `qtcurrent` are given: arrays `jac[f, p]` and a response matrix that have their own errors. `e` and `ρ` bound the
magnitudes of the exact entries, and the errors are at most `((1 + u)^n0 - 1) e` and `((1 + u)^n1 - 1) ρ`, that is about `n0 u e` and
`n1 u ρ`. -/
structure Computed (u : ℝ) (n0 n1 : ℕ) (vj : ℕ → ℕ → Arr ι) (cct : Cct ι) (resp : ℝ → ℂ) (nb : NumB) (e : ι → ℕ → ℕ → ℤ → ℝ)
    (ρ : ℝ → ℝ) (jac : ℕ → ℕ → List (Arr ι)) (r : Mat (Arr ι)) : Prop where
  coeff : ∀ f p, 1 ≤ f → f ≤ cct.numF → 1 ≤ p → p ≤ cct.numP → ∃ A', Rep ((nb.toTup cct.numF).foldr max 0) (jac f p) A' ∧
    ∀ n : ℤ, |n| ≤ (nb.toTup cct.numF).foldr max 0 → ∀ i,
      ‖Spec.jacobiAnger (vj f p i) (cct.freq f) p ((nb.toTup cct.numF).getD (f - 1) 0) n‖ ≤ e i f p n ∧
      ‖A' n i - Spec.jacobiAnger (vj f p i) (cct.freq f) p ((nb.toTup cct.numF).getD (f - 1) 0) n‖ ≤ ((1 + u) ^ n0 - 1) * e i f p n
  response : MatRel (fun (x : Arr ι) (v : ι → ℝ) => ∀ i, ‖resp (v i)‖ ≤ ρ (v i) ∧ ‖x i - resp (v i)‖ ≤ ((1 + u) ^ n1 - 1) * ρ (v i))
    r (voltages cct.vb cct.freq ((nb.toTup cct.numF).take cct.numF))

/-- C146: with any arithmetic of relative error `u` the kernels of `qtcurrent` return the exact currents up to an error of at most
`((1 + u)^K - 1)` times the magnitude of the terms. `K` counts the roundings. -/
theorem C146_error {u : ℝ} (hu : 0 ≤ u) (ar : Arith u) {n0 n1 : ℕ} (vj : ℕ → ℕ → Arr ι) (cct : Cct ι) (resp : ℝ → ℂ) {nb : NumB}
    (h : Valid cct nb) (e : ι → ℕ → ℕ → ℤ → ℝ) (ρ : ℝ → ℝ) {jac : ℕ → ℕ → List (Arr ι)} {r : Mat (Arr ι)}
    (hc : Computed u n0 n1 vj cct resp nb e ρ jac r) (fl : List ℝ) {hits : List (List ℤ → Prop)}
    (hh : List.Forall₂ (SameHits cct.numF cct.numP) hits (fl.map (Spec.matchesFreq cct.freq))) :
    ∃ cur : ℝ → Arr ι, qtcurrentList vj cct resp fl nb none = .ok (fl.map cur) ∧
      ∃ rows, Rnd.qtcurrent (rounded ar ι) cct.numF cct.numP jac r nb hits = .ok rows ∧
        List.Forall₂ (fun (row : Arr ι) (f : ℝ) => ∀ i, ‖row i - cur f i‖ ≤
          ((1 + u) ^ currentCount (convCount ((nb.toTup cct.numF).foldr max 0) n0 cct.numP) n1 cct.numF cct.numP
            ((nb.toTup cct.numF).take cct.numF) - 1)
          * magnitude (e i) ρ cct.numP ((nb.toTup cct.numF).foldr max 0) cct.freq ((nb.toTup cct.numF).take cct.numF) (cct.vb i) f)
        rows fl := by
  refine ⟨_, qtcurrentList_eq vj cct resp fl nb h, ?_⟩
  obtain ⟨rows, e1, e2⟩ := rounded_run hu ar (n0 := n0) (n1 := n1) h.harmonics h.tones_pos h.tones_le
    (fun i f p n => Spec.jacobiAnger (vj f p i) (cct.freq f) p ((nb.toTup cct.numF).getD (f - 1) 0) n) e resp ρ cct.vb cct.freq
    h.unpack (fun n hn => le_foldr_max (List.mem_of_mem_take hn)) fl hh (jac := jac) (r := r) (fun f p f1 f2 p1 p2 => by
      obtain ⟨A', a1, a2⟩ := hc.coeff f p f1 f2 p1 p2
      exact ⟨A', a1, fun n hn i => a2 n hn i⟩) (hc.response.imp fun x v hx i => hx i)
  refine ⟨rows, e1, e2.imp fun row f hrow i => ?_⟩
  have ht : Spec.tonesFrom (fun f p => vj f p i) cct.freq cct.numP ((nb.toTup cct.numF).foldr max 0) 1 ((nb.toTup cct.numF).take cct.numF)
      = Spec.tonesOf (fun g => Spec.harmonicConv ((nb.toTup cct.numF).foldr max 0) (fun p n =>
        Spec.jacobiAnger (vj g p i) (cct.freq g) p ((nb.toTup cct.numF).getD (g - 1) 0) n) cct.numP) cct.freq 1
        ((nb.toTup cct.numF).take cct.numF) := by
    refine Spec.tonesFrom_eq_tonesOf _ _ _ _ _ _ _ fun j n hj => ?_
    rw [List.getElem?_take] at hj
    split_ifs at hj with hlt
    have : (nb.toTup cct.numF).getD (1 + j - 1) 0 = n := by
      rw [Nat.add_sub_cancel_left, List.getD_eq_getElem?_getD, hj]
      rfl
    rw [this]
    rfl
  show ‖row i - Spec.qt _ _ _ _ _ _ _ _‖ ≤ _
  unfold Spec.qt
  rw [ht]
  exact hrow i

/-! ## The magnitude of the terms -/

theorem boxSum_le {P : ℕ} {B : ℝ} (ts : List Spec.Tone) (g : List (Spec.Tone × ℤ) → ℂ) (h : ∀ l, l.map Prod.fst = ts → ‖g l‖ ≤ B) :
    ‖Spec.boxSum P ts g‖ ≤ (2 * P + 1) ^ ts.length * B := by
  induction ts generalizing g with
  | nil => simpa [Spec.boxSum] using h [] rfl
  | cons t ts ih =>
    simp only [Spec.boxSum]
    refine (norm_sum_le _ _).trans ((sum_le_sum fun a _ => ih (fun l => g ((t, a) :: l)) fun l hl => h _ (by simp [hl])).trans ?_)
    rw [sum_const, Int.card_Icc, nsmul_eq_mul]
    have : (((P : ℤ) + 1 - -(P : ℤ)).toNat : ℝ) = 2 * P + 1 := by
      have : ((P : ℤ) + 1 - -(P : ℤ)).toNat = 2 * P + 1 := by omega
      rw [this]; push_cast; ring
    rw [this, List.length_cons, pow_succ]
    apply le_of_eq
    ring

theorem current_le {resp : ℝ → ℂ} {P : ℕ} {ts : List Spec.Tone} {v f B : ℝ} (h : ∀ l, l.map Prod.fst = ts → ‖Spec.corr resp l v‖ ≤ B) :
    ‖Spec.current resp P ts v f‖ ≤ (2 * P + 1) ^ ts.length * (2 * B) := by
  refine boxSum_le _ _ fun l hl => ?_
  have h1 := h l hl
  have h2 := h (l.map fun x => (x.1, -x.2)) (by rw [List.map_map]; exact hl)
  have hB := (norm_nonneg _).trans h1
  split_ifs
  · unfold Spec.mixProduct
    split_ifs
    · rw [norm_real, Real.norm_eq_abs]
      exact (abs_im_le_norm _).trans (by linarith)
    · rw [norm_mul, norm_neg, norm_I, one_mul]
      refine (norm_sub_le _ _).trans ?_
      rw [norm_conj]
      linarith
  · rw [norm_zero]; linarith

theorem length_tonesOf (C : ℕ → ℤ → ℂ) (freq : ℕ → ℝ) (f : ℕ) (nbl : List ℕ) : (Spec.tonesOf C freq f nbl).length = nbl.length := by
  induction nbl generalizing f with
  | nil => rfl
  | cons n l ih => simp [Spec.tonesOf, ih]

theorem mem_tonesOf {C : ℕ → ℤ → ℂ} {freq : ℕ → ℝ} {f : ℕ} {nbl : List ℕ} {t : Spec.Tone} (h : t ∈ Spec.tonesOf C freq f nbl) :
    ∃ g n, f ≤ g ∧ g < f + nbl.length ∧ nbl[g - f]? = some n ∧ t = ⟨C g, n, freq g⟩ := by
  induction nbl generalizing f with
  | nil => cases h
  | cons n l ih =>
    rcases List.mem_cons.1 h with rfl | h
    · exact ⟨f, n, le_rfl, by simp, by simp, rfl⟩
    · obtain ⟨g, m, h1, h2, h3, rfl⟩ := ih h
      refine ⟨g, m, by omega, by simp; omega, ?_, rfl⟩
      rw [show g - f = (g - (f + 1)) + 1 by omega]
      simpa using h3

/-- Coefficients at most `c` and responses at most `R`. -/
theorem corr_crude {resp : ℝ → ℂ} {R c : ℝ} (hR : ∀ v, ‖resp v‖ ≤ R) (l : List (Spec.Tone × ℤ))
    (h : ∀ x ∈ l, ∀ k : ℤ, |k| ≤ x.1.nb → ‖x.1.C k‖ ≤ c) (v : ℝ) :
    ‖Spec.corr resp l v‖ ≤ (l.map fun x => ((2 * x.1.nb + 1 : ℕ) : ℝ)).prod * (c ^ 2) ^ l.length * R := by
  have R0 : 0 ≤ R := (norm_nonneg _).trans (hR 0)
  induction l generalizing v with
  | nil => simpa [Spec.corr] using hR v
  | cons x l ih =>
    obtain ⟨t, a⟩ := x
    obtain ⟨h1, h2⟩ := List.forall_mem_cons.1 h
    have hp : 0 ≤ (l.map fun x => ((2 * x.1.nb + 1 : ℕ) : ℝ)).prod := by
      refine List.prod_nonneg fun y hy => ?_
      obtain ⟨_, _, rfl⟩ := List.mem_map.1 hy
      exact Nat.cast_nonneg _
    simp only [Spec.corr, List.map_cons, List.prod_cons, List.length_cons]
    refine (norm_sum_le _ _).trans ((sum_le_sum (g := fun _ => c ^ 2 * ((l.map fun x => ((2 * x.1.nb + 1 : ℕ) : ℝ)).prod * (c ^ 2) ^ l.length * R))
      fun k hk => ?_).trans ?_)
    · rw [mem_Icc, ← abs_le] at hk
      split_ifs with hka
      · rw [norm_mul, norm_mul, norm_conj]
        have b1 := h1 k hk
        have b2 := h1 (k + a) hka
        have c0 : 0 ≤ c := (norm_nonneg _).trans b1
        refine mul_le_mul ?_ (ih h2 _) (norm_nonneg _) (by positivity)
        rw [sq c]
        exact mul_le_mul b1 b2 (norm_nonneg _) c0
      · rw [norm_zero]; positivity
    · rw [sum_const, Int.card_Icc, nsmul_eq_mul]
      have : (((t.nb : ℤ) + 1 - -(t.nb : ℤ)).toNat) = 2 * t.nb + 1 := by omega
      rw [this]
      apply le_of_eq
      ring

theorem harmonicConv_le {M : ℕ} {A : ℕ → ℤ → ℂ} (hA : ∀ p n, ‖A p n‖ ≤ 1) {P : ℕ} (hP : 1 ≤ P) {k : ℤ} (hk : |k| ≤ M) :
    ‖Spec.harmonicConv M A P k‖ ≤ (2 * M + 1) ^ (P - 1) := by
  induction P, hP using Nat.le_induction generalizing k with
  | base => rw [harmonicConv_one M A hk]; simpa using hA 1 k
  | succ P hP ih =>
    rw [Spec.harmonicConv]
    refine (norm_sum_le _ _).trans ((sum_le_sum (g := fun _ => ((2 * M + 1 : ℝ)) ^ (P - 1)) fun l _ => ?_).trans ?_)
    · split_ifs with h1
      · rw [norm_mul]
        exact (mul_le_mul (ih h1) (hA _ _) (norm_nonneg _) (by positivity)).trans_eq (mul_one _)
      · rw [norm_zero]; positivity
    · rw [sum_const, Int.card_Icc, nsmul_eq_mul]
      have : (((M : ℤ) + 1 - -(M : ℤ)).toNat) = 2 * M + 1 := by omega
      rw [this, Nat.add_sub_cancel]
      obtain ⟨Q, rfl⟩ : ∃ Q, P = Q + 1 := ⟨P - 1, by omega⟩
      rw [Nat.add_sub_cancel, pow_succ]
      apply le_of_eq
      push_cast
      ring

theorem jacobiAnger_le (v : ℂ) (w : ℝ) (p nb : ℕ) (n : ℤ) : ‖Spec.jacobiAnger v w p nb n‖ ≤ 1 := by
  unfold Spec.jacobiAnger
  split_ifs
  · rw [norm_mul, norm_real, Real.norm_eq_abs]
    have : ‖exp (-I * n * arg v)‖ = 1 := by
      rw [show -I * (n : ℂ) * (arg v : ℂ) = ((-(n * arg v) : ℝ) : ℂ) * I by push_cast; ring, norm_exp_ofReal_mul_I]
    rw [this, mul_one]
    exact abs_besselJ_le_one _ _
  · simp

/-- With entries `e ≤ 1` and responses at most `R`. -/
theorem magnitude_le {R : ℝ} (hR : 0 ≤ R) {P M : ℕ} (hP : 1 ≤ P) (freq : ℕ → ℝ) {nbl : List ℕ} (hM : ∀ n ∈ nbl, n ≤ M) (v f : ℝ) :
    magnitude (fun _ _ _ => 1) (fun _ => R) P M freq nbl v f ≤
      (2 * P + 1) ^ nbl.length * (2 * ((nbl.map fun n => ((2 * n + 1 : ℕ) : ℝ)).prod * (((2 * M + 1) ^ (P - 1)) ^ 2) ^ nbl.length * R)) := by
  unfold magnitude
  refine (le_abs_self _).trans ((abs_re_le_norm _).trans ?_)
  have := current_le (resp := fun v => I * (R : ℂ)) (P := P) (v := v) (f := f)
    (ts := Spec.tonesOf (fun g => Spec.harmonicConv M (fun p n => ((1 : ℝ) : ℂ)) P) freq 1 nbl)
    (B := (nbl.map fun n => ((2 * n + 1 : ℕ) : ℝ)).prod * (((2 * M + 1) ^ (P - 1)) ^ 2) ^ nbl.length * R) ?_
  · rwa [length_tonesOf] at this
  · intro l hl
    have hlen : l.length = nbl.length := by
      rw [← List.length_map (f := Prod.fst), hl, length_tonesOf]
    have hprod : (l.map fun x => ((2 * x.1.nb + 1 : ℕ) : ℝ)) = nbl.map fun n => ((2 * n + 1 : ℕ) : ℝ) := by
      have e1 : (l.map fun x => ((2 * x.1.nb + 1 : ℕ) : ℝ)) = (l.map Prod.fst).map fun t => ((2 * t.nb + 1 : ℕ) : ℝ) := by
        rw [List.map_map]; rfl
      rw [e1, hl]
      have : ∀ (C : ℕ → ℤ → ℂ) g (m : List ℕ), ((Spec.tonesOf C freq g m).map fun t => ((2 * t.nb + 1 : ℕ) : ℝ)) = m.map fun n => ((2 * n + 1 : ℕ) : ℝ) := by
        intro C g m
        induction m generalizing g with
        | nil => rfl
        | cons n m ih => simp only [Spec.tonesOf, List.map_cons, ih]
      exact this _ _ _
    have := corr_crude (resp := fun _ => I * (R : ℂ)) (R := R) (c := (2 * M + 1) ^ (P - 1)) (by simp [abs_of_nonneg hR]) l ?_ v
    · rwa [hprod, hlen] at this
    · intro x hx k hk
      have hx' : x.1 ∈ l.map Prod.fst := List.mem_map_of_mem hx
      rw [hl] at hx'
      obtain ⟨g, n, _, _, hn, ht⟩ := mem_tonesOf hx'
      rw [ht] at hk ⊢
      have hnM := hM n (List.mem_of_getElem? hn)
      simp only at hk ⊢
      exact harmonicConv_le (by simp) hP (hk.trans (by exact_mod_cast hnM))

/-- C146, explicit: with coefficients computed to within `((1 + u)^n0 - 1)` and responses of magnitude at most `R` computed to within
`((1 + u)^n1 - 1) R`, the error of every current is at most `((1 + u)^K - 1) C R` with a constant `C` that depends only on the number of tones
and harmonics and on the summation limits. -/
theorem C146_bound {u : ℝ} (hu : 0 ≤ u) (ar : Arith u) {n0 n1 : ℕ} (vj : ℕ → ℕ → Arr ι) (cct : Cct ι) (resp : ℝ → ℂ) {nb : NumB}
    (h : Valid cct nb) {R : ℝ} {jac : ℕ → ℕ → List (Arr ι)} {r : Mat (Arr ι)} (hR : 0 ≤ R)
    (hc : Computed u n0 n1 vj cct resp nb (fun _ _ _ _ => 1) (fun _ => R) jac r) (fl : List ℝ) {hits : List (List ℤ → Prop)}
    (hh : List.Forall₂ (SameHits cct.numF cct.numP) hits (fl.map (Spec.matchesFreq cct.freq))) :
    ∃ cur : ℝ → Arr ι, qtcurrentList vj cct resp fl nb none = .ok (fl.map cur) ∧
      ∃ rows, Rnd.qtcurrent (rounded ar ι) cct.numF cct.numP jac r nb hits = .ok rows ∧
        List.Forall₂ (fun (row : Arr ι) (f : ℝ) => ∀ i, ‖row i - cur f i‖ ≤
          ((1 + u) ^ currentCount (convCount ((nb.toTup cct.numF).foldr max 0) n0 cct.numP) n1 cct.numF cct.numP
            ((nb.toTup cct.numF).take cct.numF) - 1)
          * ((2 * cct.numP + 1) ^ cct.numF * (2 * ((((nb.toTup cct.numF).take cct.numF).map fun n => ((2 * n + 1 : ℕ) : ℝ)).prod
            * (((2 * (nb.toTup cct.numF).foldr max 0 + 1) ^ (cct.numP - 1)) ^ 2) ^ cct.numF * R)))) rows fl := by
  obtain ⟨cur, e1, rows, e2, e3⟩ := C146_error hu ar vj cct resp h (fun _ _ _ _ => 1) (fun _ => R) hc fl hh
  refine ⟨cur, e1, rows, e2, e3.imp fun row f hrow i => (hrow i).trans ?_⟩
  have hlen : ((nb.toTup cct.numF).take cct.numF).length = cct.numF := by
    rw [List.length_take, min_eq_left h.limits]
  have := magnitude_le hR h.harmonics cct.freq (nbl := (nb.toTup cct.numF).take cct.numF) (M := (nb.toTup cct.numF).foldr max 0)
    (fun n hn => le_foldr_max (List.mem_of_mem_take hn)) (cct.vb i) f
  rw [hlen] at this
  refine mul_le_mul_of_nonneg_left ?_ (sub_nonneg.2 (Rnd.one_le_pow hu _))
  exact_mod_cast this

/-- C146, one harmonic: if the coefficients are computed to a relative accuracy, the error is at most `((1 + u)^K - 1) 2 3^F R`: nothing
grows with the summation limits except the number of roundings. -/
theorem C146_one_harmonic {u : ℝ} (hu : 0 ≤ u) (ar : Arith u) {n0 n1 : ℕ} (vj : ℕ → ℕ → Arr ι) (cct : Cct ι) (resp : ℝ → ℂ) {nb : NumB}
    (h : Valid cct nb) (hp : cct.numP = 1) {R : ℝ} (hR : 0 ≤ R) {jac : ℕ → ℕ → List (Arr ι)} {r : Mat (Arr ι)}
    (hc : Computed u n0 n1 vj cct resp nb
      (fun i f p n => ‖Spec.jacobiAnger (vj f p i) (cct.freq f) p ((nb.toTup cct.numF).getD (f - 1) 0) n‖) (fun _ => R) jac r)
    (fl : List ℝ) {hits : List (List ℤ → Prop)}
    (hh : List.Forall₂ (SameHits cct.numF cct.numP) hits (fl.map (Spec.matchesFreq cct.freq))) :
    ∃ cur : ℝ → Arr ι, qtcurrentList vj cct resp fl nb none = .ok (fl.map cur) ∧
      ∃ rows, Rnd.qtcurrent (rounded ar ι) cct.numF cct.numP jac r nb hits = .ok rows ∧
        List.Forall₂ (fun (row : Arr ι) (f : ℝ) => ∀ i, ‖row i - cur f i‖ ≤
          ((1 + u) ^ (2 * cct.numF * (n0 + 1) + n1 + (((nb.toTup cct.numF).take cct.numF).map fun n => 2 * n + 1).prod + 1 + 3 ^ cct.numF) - 1)
          * (2 * 3 ^ cct.numF * R)) rows fl := by
  obtain ⟨cur, e1, rows, e2, e3⟩ := C146_error hu ar vj cct resp h _ _ hc fl hh
  refine ⟨cur, e1, rows, e2, e3.imp fun row f hrow i => (hrow i).trans ?_⟩
  have hlen : ((nb.toTup cct.numF).take cct.numF).length = cct.numF := by
    rw [List.length_take, min_eq_left h.limits]
  have hK : currentCount (convCount ((nb.toTup cct.numF).foldr max 0) n0 cct.numP) n1 cct.numF cct.numP ((nb.toTup cct.numF).take cct.numF)
      = 2 * cct.numF * (n0 + 1) + n1 + (((nb.toTup cct.numF).take cct.numF).map fun n => 2 * n + 1).prod + 1 + 3 ^ cct.numF := by
    rw [hp]
    simp [currentCount, convCount]
  rw [hK]
  refine mul_le_mul_of_nonneg_left ?_ (sub_nonneg.2 (Rnd.one_le_pow hu _))
  unfold magnitude
  refine (le_abs_self _).trans ((abs_re_le_norm _).trans ?_)
  set M := (nb.toTup cct.numF).foldr max 0 with hMdef
  have := current_le (resp := fun v => I * (R : ℂ)) (P := cct.numP) (v := cct.vb i) (f := f)
    (ts := Spec.tonesOf (fun g => Spec.harmonicConv M (fun p n => ((‖Spec.jacobiAnger (vj g p i) (cct.freq g) p
      ((nb.toTup cct.numF).getD (g - 1) 0) n‖ : ℝ) : ℂ)) cct.numP) cct.freq 1 ((nb.toTup cct.numF).take cct.numF)) (B := R) ?_
  · rw [length_tonesOf, hlen] at this
    refine this.trans (le_of_eq ?_)
    rw [hp]
    push_cast
    ring
  · intro l hl
    refine corr_le (r := fun _ => I * (R : ℂ)) (by simp [abs_of_nonneg hR]) l (fun x hx => ?_) _
    have hx' : x.1 ∈ l.map Prod.fst := List.mem_map_of_mem hx
    rw [hl] at hx'
    obtain ⟨g, n, g1, g2, hn, ht⟩ := mem_tonesOf hx'
    rw [ht]
    have hn' : n ∈ nb.toTup cct.numF := List.mem_of_mem_take (List.mem_of_getElem? hn)
    have hnM : n ≤ M := le_foldr_max hn'
    have hget : (nb.toTup cct.numF).getD (g - 1) 0 = n := by
      rw [List.getElem?_take] at hn
      split_ifs at hn
      rw [List.getD_eq_getElem?_getD, hn]
      rfl
    have hsq := Spec.toneCoeff_sq_le (fun p => vj g p i) (cct.freq g) (P := cct.numP) hnM (.inl (by omega))
    refine le_trans (le_of_eq (sum_congr rfl fun k hk => ?_)) hsq
    rw [mem_Icc, ← abs_le] at hk
    have hk' : |k| ≤ (M : ℤ) := hk.trans (by exact_mod_cast hnM)
    simp only [hp, Spec.toneCoeff]
    rw [harmonicConv_one M _ hk', harmonicConv_one M _ hk', hget, norm_real, norm_norm]

/-! ## Frequency matching -/

theorem round4_stable {x y δ : ℝ} (h : |x - y| ≤ δ) (ht : ∀ n : ℤ, δ < |y - (n + 1 / 2) / 10 ^ 4|) : round4 x = round4 y := by
  have h1 := abs_roundHalfEven_sub_le (y * 10 ^ 4)
  set m := roundHalfEven (y * 10 ^ 4) with hm
  have t1 := ht m
  have t2 := ht (m - 1)
  rw [abs_le] at h h1
  have e1 : y - ((m : ℝ) + 1 / 2) / 10 ^ 4 = ((y * 10 ^ 4 - m) - 1 / 2) / 10 ^ 4 := by ring
  have e2 : y - (((m - 1 : ℤ) : ℝ) + 1 / 2) / 10 ^ 4 = ((y * 10 ^ 4 - m) + 1 / 2) / 10 ^ 4 := by push_cast; ring
  rw [e1, abs_of_nonpos (by apply div_nonpos_of_nonpos_of_nonneg <;> linarith)] at t1
  rw [e2, abs_of_nonneg (by apply div_nonneg <;> linarith)] at t2
  have hx : |x - m / 10 ^ 4| < 1 / 20000 := by
    rw [abs_lt]
    constructor <;> linarith
  have hy : |y - m / 10 ^ 4| < 1 / 20000 := by
    have d0 : 0 ≤ δ := by linarith
    rw [abs_lt]
    constructor <;> linarith
  rw [round4_near m hx, round4_near m hy]

/-- C146, the products that are found: if the frequencies `a f1 + b f2 + ...` are computed to within `δ`, and no exact frequency is within `δ`
of a tie of the rounding to 4 decimals, then the rounded run adds up the same products as the exact one. -/
theorem C146_matching (cct : Cct ι) {δ : ℝ} (w : List ℤ → ℝ)
    (hw : ∀ as : List ℤ, as.length = cct.numF → (∀ a ∈ as, |a| ≤ (cct.numP : ℤ)) → |w as - Spec.photonShift cct.freq 1 as| ≤ δ)
    (ht : ∀ as : List ℤ, as.length = cct.numF → (∀ a ∈ as, |a| ≤ (cct.numP : ℤ)) →
      ∀ n : ℤ, δ < |Spec.photonShift cct.freq 1 as - (n + 1 / 2) / 10 ^ 4|) (fl : List ℝ) :
    List.Forall₂ (SameHits cct.numF cct.numP) (fl.map fun f as => round4 (w as) = round4 f) (fl.map (Spec.matchesFreq cct.freq)) := by
  rw [List.forall₂_map_left_iff, List.forall₂_map_right_iff]
  refine List.forall₂_same.2 fun f _ as h1 h2 => ?_
  unfold Spec.matchesFreq
  beta_reduce
  rw [round4_stable (hw as h1 h2) (ht as h1 h2)]

/-! ## An example in double precision -/

/-- Arrays and a matrix whose entries are all too large by the factor `1 + u`. -/
theorem computed_scaled {u : ℝ} (hu : 0 ≤ u) (vj : ℕ → ℕ → Arr ι) (cct : Cct ι) (resp : ℝ → ℂ) (nb : NumB) :
    Computed u 1 1 vj cct resp nb
      (fun i f p n => ‖Spec.jacobiAnger (vj f p i) (cct.freq f) p ((nb.toTup cct.numF).getD (f - 1) 0) n‖) (fun v => ‖resp v‖)
      (fun f p => (indArr ((nb.toTup cct.numF).foldr max 0)).map fun n i =>
        Spec.jacobiAnger (vj f p i) (cct.freq f) p ((nb.toTup cct.numF).getD (f - 1) 0) n * (1 + u : ℝ))
      ((voltages cct.vb cct.freq ((nb.toTup cct.numF).take cct.numF)).map fun v i => resp (v i) * (1 + u : ℝ)) := by
  have key : ∀ z : ℂ, ‖z * (1 + u : ℝ) - z‖ ≤ ((1 + u) ^ 1 - 1) * ‖z‖ := by
    intro z
    rw [show z * ((1 + u : ℝ) : ℂ) - z = z * (u : ℂ) by push_cast; ring, norm_mul, norm_real, Real.norm_eq_abs, abs_of_nonneg hu]
    apply le_of_eq
    ring
  refine ⟨fun f p _ _ _ _ => ⟨_, (indArr_rep _).map _, fun n _ i => ⟨le_rfl, key _⟩⟩, ?_⟩
  have := MatRel.map_map (R := fun (x : Arr ι) (v : ι → ℝ) => ∀ i, ‖resp (v i)‖ ≤ ‖resp (v i)‖ ∧
    ‖x i - resp (v i)‖ ≤ ((1 + u) ^ 1 - 1) * ‖resp (v i)‖) (g := fun v i => resp (v i) * (1 + u : ℝ)) (g' := id)
    (fun v i => ⟨le_rfl, key _⟩) (voltages cct.vb cct.freq ((nb.toTup cct.numF).take cct.numF))
  have hid : (voltages cct.vb cct.freq ((nb.toTup cct.numF).take cct.numF)).map id
      = voltages cct.vb cct.freq ((nb.toTup cct.numF).take cct.numF) := by
    match voltages cct.vb cct.freq ((nb.toTup cct.numF).take cct.numF) with
    | .m1 _ => simp [Mat.map]
    | .m2 _ => simp [Mat.map]
    | .m3 _ => simp [Mat.map]
    | .m4 _ => simp [Mat.map]
  rwa [hid] at this

/-- Two tones and two harmonics in double precision, from arrays that have an error themselves. -/
example (vj : ℕ → ℕ → Arr (Fin 2)) (resp : ℝ → ℂ) : ∃ cur : ℝ → Arr (Fin 2), qtcurrentList vj demo resp [0, 0.3] (.tup [3, 2]) none
    = .ok ([0, 0.3].map cur) ∧ ∃ rows, Rnd.qtcurrent (rounded Spec.binary64 (Fin 2)) 2 2 (fun f p => (indArr 3).map fun n i =>
        Spec.jacobiAnger (vj f p i) (demo.freq f) p ([3, 2].getD (f - 1) 0) n * (1 + 4 * Spec.u64 : ℝ))
      ((voltages demo.vb demo.freq [3, 2]).map fun v i => resp (v i) * (1 + 4 * Spec.u64 : ℝ)) (.tup [3, 2])
      ([0, 0.3].map (Spec.matchesFreq demo.freq)) = .ok rows ∧
      List.Forall₂ (fun (row : Arr (Fin 2)) (f : ℝ) => ∀ i, ‖row i - cur f i‖ ≤ ((1 + 4 * Spec.u64) ^ 274 - 1) * magnitude
        (fun f p n => ‖Spec.jacobiAnger (vj f p i) (demo.freq f) p ([3, 2].getD (f - 1) 0) n‖) (fun v => ‖resp v‖) 2 3 demo.freq [3, 2]
        (demo.vb i) f) rows [0, 0.3] := by
  have u0 : 0 ≤ 4 * Spec.u64 := by have := Spec.u64_pos; positivity
  exact C146_error u0 Spec.binary64 vj demo resp demo_valid _ _ (computed_scaled u0 vj demo resp (.tup [3, 2])) [0, 0.3]
    (List.forall₂_same.2 fun _ _ _ _ _ => Iff.rfl)

end QMix.Props
