import Verif.Lemmas.Energy
import Verif.Lemmas.MtsdaExtra

/-! Box sums with few terms, the list of exact tones, and the reversal of all voltages. -/

namespace QMix

open Complex Filter Topology Finset Spec

/-! ## Box sums -/

theorem boxSum_congr' {P : ℕ} {ts : List Tone} {g g' : List (Tone × ℤ) → ℂ}
    (h : ∀ as : List ℤ, as.length = ts.length → (∀ a ∈ as, |a| ≤ (P : ℤ)) → g (ts.zip as) = g' (ts.zip as)) :
    boxSum P ts g = boxSum P ts g' := by
  induction ts generalizing g g' with
  | nil => simpa [boxSum] using h [] rfl (by simp)
  | cons t ts ih =>
    simp only [boxSum]
    refine Finset.sum_congr rfl fun a ha => ih fun as h1 h2 => ?_
    rw [Finset.mem_Icc, ← abs_le] at ha
    exact h (a :: as) (by simp [h1]) (List.forall_mem_cons.2 ⟨ha, h2⟩)

/-- A box sum with a single non-zero term. -/
theorem boxSum_single {P : ℕ} {ts : List Tone} {g : List (Tone × ℤ) → ℂ} {bs : List ℤ} (hlen : bs.length = ts.length)
    (hbox : ∀ b ∈ bs, |b| ≤ (P : ℤ))
    (h : ∀ as : List ℤ, as.length = ts.length → (∀ a ∈ as, |a| ≤ (P : ℤ)) → as ≠ bs → g (ts.zip as) = 0) :
    boxSum P ts g = g (ts.zip bs) := by
  induction ts generalizing g bs with
  | nil => simp [boxSum]
  | cons t ts ih =>
    cases bs with
    | nil => simp at hlen
    | cons b bs =>
      obtain ⟨hb, hbs⟩ := List.forall_mem_cons.1 hbox
      simp only [boxSum]
      rw [Finset.sum_eq_single_of_mem b (Finset.mem_Icc.2 (abs_le.1 hb))]
      · refine ih (by simpa using hlen) hbs fun as h1 h2 h3 => ?_
        exact h (b :: as) (by simp [h1]) (List.forall_mem_cons.2 ⟨hb, h2⟩) (by simpa using h3)
      · intro a ha hne
        rw [Finset.mem_Icc, ← abs_le] at ha
        refine boxSum_eq_zero P ts _ fun as h1 h2 => ?_
        exact h (a :: as) (by simp [h1]) (List.forall_mem_cons.2 ⟨ha, h2⟩) (fun e => hne (List.cons.inj e).1)

/-- A box sum whose terms vanish when two orders or more are not zero. -/
theorem boxSum_units {P : ℕ} {ts : List Tone} {g : List (Tone × ℤ) → ℂ}
    (h : ∀ as : List ℤ, as.length = ts.length → (∀ a ∈ as, |a| ≤ (P : ℤ)) →
      (∀ i a, as ≠ (List.replicate ts.length 0).set i a) → g (ts.zip as) = 0) :
    boxSum P ts g = g (ts.zip (List.replicate ts.length 0)) + ∑ i ∈ range ts.length, ∑ a ∈ (Icc (-(P : ℤ)) P).erase 0,
      g (ts.zip ((List.replicate ts.length 0).set i a)) := by
  induction ts generalizing g with
  | nil => simp [boxSum]
  | cons t ts ih =>
    simp only [boxSum, List.length_cons, List.replicate_succ]
    rw [Finset.sum_range_succ', ← Finset.add_sum_erase _ _ (Finset.mem_Icc.2 (by omega) : (0 : ℤ) ∈ Icc (-(P : ℤ)) P)]
    simp only [List.set_cons_succ, List.set_cons_zero, List.zip_cons_cons]
    rw [ih (g := fun l => g ((t, 0) :: l))]
    · rw [add_assoc]
      congr 2
      refine Finset.sum_congr rfl fun a ha => ?_
      rw [Finset.mem_erase, Finset.mem_Icc, ← abs_le] at ha
      refine boxSum_single (by simp) (fun b hb => ?_) fun as h1 h2 h3 => ?_
      · rw [List.eq_of_mem_replicate hb]
        simp
      · refine h (a :: as) (by simp [h1]) (List.forall_mem_cons.2 ⟨ha.2, h2⟩) fun i b => ?_
        cases i with
        | zero =>
          intro e
          simp only [List.length_cons, List.replicate_succ, List.set_cons_zero, List.cons.injEq] at e
          exact h3 e.2
        | succ i =>
          intro e
          simp only [List.length_cons, List.replicate_succ, List.set_cons_succ, List.cons.injEq] at e
          exact ha.1 e.1
    · intro as h1 h2 h3
      refine h (0 :: as) (by simp [h1]) (List.forall_mem_cons.2 ⟨by simp, h2⟩) fun i b => ?_
      cases i with
      | zero =>
        intro e
        simp only [List.length_cons, List.replicate_succ, List.set_cons_zero, List.cons.injEq] at e
        refine h3 ts.length 0 ?_
        rw [List.set_eq_of_length_le (by simp)]
        exact e.2
      | succ i =>
        intro e
        simp only [List.length_cons, List.replicate_succ, List.set_cons_succ, List.cons.injEq] at e
        exact h3 i b e.2

/-! ## The exact tones -/

theorem length_tonesFull (v : ℕ → ℕ → ℂ) (freq : ℕ → ℝ) (P f n : ℕ) : (tonesFull v freq P f n).length = n := by
  induction n generalizing f with
  | zero => rfl
  | succ n ih => simp [tonesFull, ih]

theorem tonesFull_exact (v : ℕ → ℕ → ℂ) (freq : ℕ → ℝ) (P f n : ℕ) (h : ∀ g, f ≤ g → g < f + n → freq g ≠ 0) :
    List.Forall₂ (Exact P) ((List.range' f n).map v) (tonesFull v freq P f n) := by
  induction n generalizing f with
  | zero => exact .nil
  | succ n ih =>
    exact .cons (exact_phaseCoeff (v f) (h f le_rfl (by omega)) P 0) (ih (f + 1) fun g h1 h2 => h g (by omega) (by omega))

theorem tonesFull_small (v : ℕ → ℕ → ℂ) (freq : ℕ → ℝ) (P f n : ℕ) :
    ∀ L ∈ tonesFull v freq P f n, Small fun k => ‖L.C k‖ := by
  induction n generalizing f with
  | zero => simp [tonesFull]
  | succ n ih => exact List.forall_mem_cons.2 ⟨small_phaseCoeff (v f) (freq f) P, ih (f + 1)⟩

theorem mixFreq_tonesFull (v : ℕ → ℕ → ℂ) (freq : ℕ → ℝ) (P f n : ℕ) (as : List ℤ) (h : as.length = n) :
    mixFreq ((tonesFull v freq P f n).zip as) = photonShift freq f as := by
  induction n generalizing f as with
  | zero =>
    obtain rfl := List.length_eq_zero_iff.1 h
    rfl
  | succ n ih =>
    cases as with
    | nil => simp at h
    | cons a as =>
      have := ih (f + 1) as (by simpa using h)
      unfold mixFreq at this ⊢
      simp [tonesFull, photonShift, this]

theorem photonShift_zero (freq : ℕ → ℝ) (f n : ℕ) : photonShift freq f (List.replicate n 0) = 0 := by
  induction n generalizing f with
  | zero => rfl
  | succ n ih => simp [List.replicate_succ, photonShift, ih]

theorem photonShift_unit (freq : ℕ → ℝ) (f n i : ℕ) (hi : i < n) (a : ℤ) :
    photonShift freq f ((List.replicate n 0).set i a) = a * freq (f + i) := by
  induction n generalizing f i with
  | zero => omega
  | succ n ih =>
    cases i with
    | zero => simp [List.replicate_succ, photonShift, photonShift_zero]
    | succ i =>
      simp only [List.replicate_succ, List.set_cons_succ, photonShift, ih (f + 1) i (by omega)]
      rw [show f + 1 + i = f + (i + 1) by omega]
      simp

/-- The applied phasor of a single order. -/
theorem applied_unit (vs : List (ℕ → ℂ)) (i : ℕ) (hi : i < vs.length) {a : ℤ} (ha : a ≠ 0) :
    applied vs ((List.replicate vs.length 0).set i a)
      = if 0 < a then vs.getD i 0 a.natAbs else (starRingEnd ℂ) (vs.getD i 0 a.natAbs) := by
  induction vs generalizing i with
  | nil => simp at hi
  | cons v vs ih =>
    cases i with
    | zero =>
      simp only [List.length_cons, List.replicate_succ, List.set_cons_zero, applied, if_neg ha, List.getD_cons_zero]
      rw [if_pos]
      intro b hb
      exact List.eq_of_mem_replicate hb
    | succ i =>
      simp only [List.length_cons, List.replicate_succ, List.set_cons_succ, applied, if_true, List.getD_cons_succ]
      exact ih i (by simpa using hi)

theorem applied_eq_zero (vs : List (ℕ → ℂ)) (as : List ℤ) (hlen : as.length = vs.length)
    (h : ∀ i a, as ≠ (List.replicate vs.length 0).set i a) : applied vs as = 0 := by
  induction vs generalizing as with
  | nil => cases as <;> rfl
  | cons v vs ih =>
    cases as with
    | nil => simp at hlen
    | cons a as =>
      simp only [applied]
      split_ifs with ha hz hp
      · subst ha
        refine ih as (by simpa using hlen) fun i b e => h (i + 1) b ?_
        simp [List.replicate_succ, e]
      · exfalso
        refine h 0 a ?_
        simp only [List.length_cons, List.replicate_succ, List.set_cons_zero, List.cons.injEq, true_and]
        exact List.eq_replicate_iff.2 ⟨by simpa using hlen, hz⟩
      · exfalso
        refine h 0 a ?_
        simp only [List.length_cons, List.replicate_succ, List.set_cons_zero, List.cons.injEq, true_and]
        exact List.eq_replicate_iff.2 ⟨by simpa using hlen, hz⟩
      · rfl

theorem replicate_set_zero {n i : ℕ} : (List.replicate n (0 : ℤ)).set i 0 = List.replicate n 0 := by
  refine List.eq_replicate_iff.2 ⟨by simp, fun b hb => ?_⟩
  rcases List.mem_or_eq_of_mem_set hb with h | h
  · exact List.eq_of_mem_replicate h
  · exact h

theorem getD_map_range' (v : ℕ → ℕ → ℂ) (n i : ℕ) (hi : i < n) : ((List.range' 1 n).map v).getD i 0 = v (1 + i) := by
  simp [List.getD_eq_getElem?_getD, List.getElem?_map, List.getElem?_range', hi]

theorem sum_range_Icc {M : Type*} [AddCommMonoid M] (n : ℕ) (g : ℕ → M) : ∑ i ∈ range n, g (1 + i) = ∑ f ∈ Icc 1 n, g f := by
  rw [Finset.range_eq_Ico, Finset.sum_Ico_add]
  rfl

/-- The signed orders of one tone, split into positive and negative ones. -/
theorem sum_orders {P : ℕ} (g : ℤ → ℂ) :
    ∑ a ∈ (Icc (-(P : ℤ)) P).erase 0, g a = ∑ p ∈ Icc 1 P, (g p + g (-p)) := by
  rw [Finset.sum_add_distrib]
  have e : (Icc (-(P : ℤ)) P).erase 0 = (Icc 1 P).image (fun p : ℕ => (p : ℤ)) ∪ (Icc 1 P).image (fun p : ℕ => -(p : ℤ)) := by
    ext a
    simp only [Finset.mem_erase, Finset.mem_Icc, Finset.mem_union, Finset.mem_image]
    constructor
    · rintro ⟨h0, h1, h2⟩
      rcases lt_or_gt_of_ne h0 with h | h
      · exact .inr ⟨a.natAbs, by omega, by omega⟩
      · exact .inl ⟨a.natAbs, by omega, by omega⟩
    · rintro (⟨p, hp, rfl⟩ | ⟨p, hp, rfl⟩) <;> omega
  rw [e, Finset.sum_union, Finset.sum_image, Finset.sum_image]
  · intro x _ y _ hxy
    have : -(x : ℤ) = -(y : ℤ) := hxy
    omega
  · intro x _ y _ hxy
    have : (x : ℤ) = (y : ℤ) := hxy
    omega
  · rw [Finset.disjoint_left]
    intro a ha hb
    simp only [Finset.mem_image, Finset.mem_Icc] at ha hb
    obtain ⟨p, hp, rfl⟩ := ha
    obtain ⟨q, hq, e⟩ := hb
    omega

theorem unit_box {P n i : ℕ} {a : ℤ} (ha : |a| ≤ (P : ℤ)) : ∀ b ∈ (List.replicate n (0 : ℤ)).set i a, |b| ≤ (P : ℤ) := by
  intro b hb
  rcases List.mem_or_eq_of_mem_set hb with h | h
  · rw [List.eq_of_mem_replicate h]
    simp
  · rw [h]
    exact ha

theorem unit_ne {n i : ℕ} {a : ℤ} (hi : i < n) (ha : a ≠ 0) : ¬ ∀ b ∈ (List.replicate n (0 : ℤ)).set i a, b = 0 := by
  intro h
  exact ha (h a (List.mem_set (by simpa using hi) _))

/-- The full current of a resistor. -/
theorem qtFull_resistor (v : ℕ → ℕ → ℂ) (freq : ℕ → ℝ) (numF P : ℕ) (hf : ∀ f, 1 ≤ f → f ≤ numF → freq f ≠ 0) (vb x : ℝ) :
    qtFull (fun y => I * y) v freq numF P vb x = (if round4 0 = round4 x then (vb : ℂ) else 0) +
      ∑ f ∈ Icc 1 numF, ∑ p ∈ Icc 1 P, ((if round4 (p * freq f) = round4 x then v f p else 0)
        + (if round4 (-(p * freq f)) = round4 x then (starRingEnd ℂ) (v f p) else 0)) := by
  have hE := tonesFull_exact v freq P 1 numF fun g h1 h2 => hf g h1 (by omega)
  have hlv : ((List.range' 1 numF).map v).length = numF := by simp
  have hL := length_tonesFull v freq P 1 numF
  unfold qtFull currentFull
  have h1 : ∀ as : List ℤ, as.length = (tonesFull v freq P 1 numF).length → (∀ a ∈ as, |a| ≤ (P : ℤ)) →
      (if round4 (mixFreq ((tonesFull v freq P 1 numF).zip as)) = round4 x then
        mixFull (fun y => I * y) ((tonesFull v freq P 1 numF).zip as) vb else 0)
      = if round4 (photonShift freq 1 as) = round4 x then
          (if ∀ a ∈ as, a = 0 then (vb : ℂ) else applied ((List.range' 1 numF).map v) as) else 0 := by
    intro as h1 h2
    rw [hL] at h1
    rw [mixFreq_tonesFull v freq P 1 numF as h1, mixFull_ohm P hE as (by rw [h1, hlv]) h2]
  rw [boxSum_units]
  · rw [h1 _ (by simp) (fun a ha => by rw [List.eq_of_mem_replicate ha]; simp), if_pos (fun a ha => List.eq_of_mem_replicate ha),
      photonShift_zero, hL, ← sum_range_Icc]
    congr 1
    refine Finset.sum_congr rfl fun i hi => ?_
    rw [Finset.mem_range] at hi
    have ht : ∀ a ∈ (Icc (-(P : ℤ)) P).erase 0,
        (if round4 (mixFreq ((tonesFull v freq P 1 numF).zip ((List.replicate numF 0).set i a))) = round4 x then
          mixFull (fun y => I * y) ((tonesFull v freq P 1 numF).zip ((List.replicate numF 0).set i a)) vb else 0)
        = if round4 (a * freq (1 + i)) = round4 x then
            (if 0 < a then v (1 + i) a.natAbs else (starRingEnd ℂ) (v (1 + i) a.natAbs)) else 0 := by
      intro a ha
      rw [Finset.mem_erase, Finset.mem_Icc, ← abs_le] at ha
      rw [h1 _ (by simp [hL]) (unit_box ha.2), photonShift_unit freq 1 numF i hi a, if_neg (unit_ne hi ha.1)]
      have hu := applied_unit ((List.range' 1 numF).map v) i (by rw [hlv]; exact hi) ha.1
      rw [hlv, getD_map_range' v numF i hi] at hu
      rw [hu]
    rw [Finset.sum_congr rfl ht, sum_orders]
    refine Finset.sum_congr rfl fun p hp => ?_
    have hp0 := (Finset.mem_Icc.1 hp).1
    rw [if_pos (by omega : (0 : ℤ) < p), if_neg (by omega : ¬ (0 : ℤ) < -p)]
    simp
  · intro as h2 h3 h4
    rw [h1 as h2 h3]
    rw [hL] at h2 h4
    have hn : ¬ ∀ a ∈ as, a = 0 := by
      intro h0
      refine h4 0 0 ?_
      rw [replicate_set_zero]
      exact List.eq_replicate_iff.2 ⟨h2, h0⟩
    rw [if_neg hn, applied_eq_zero _ as (by rw [h2, hlv]) (by rw [hlv]; exact h4), ite_self]

/-- The full current at a frequency that only the orders `bs` produce. -/
theorem qtFull_single (resp : ℝ → ℂ) (v : ℕ → ℕ → ℂ) (freq : ℕ → ℝ) (numF P : ℕ) (vb x : ℝ) (bs : List ℤ)
    (hlen : bs.length = numF) (hbox : ∀ b ∈ bs, |b| ≤ (P : ℤ)) (hx : round4 (photonShift freq 1 bs) = round4 x)
    (h : ∀ as : List ℤ, as.length = numF → (∀ a ∈ as, |a| ≤ (P : ℤ)) → round4 (photonShift freq 1 as) = round4 x → as = bs) :
    qtFull resp v freq numF P vb x = mixFull resp ((tonesFull v freq P 1 numF).zip bs) vb := by
  have hL := length_tonesFull v freq P 1 numF
  unfold qtFull currentFull
  rw [boxSum_single (bs := bs) (by rw [hlen, hL]) hbox]
  · rw [mixFreq_tonesFull v freq P 1 numF bs hlen, if_pos hx]
  · intro as h1 h2 h3
    rw [hL] at h1
    rw [mixFreq_tonesFull v freq P 1 numF as h1, if_neg fun e => h3 (h as h1 h2 e)]

/-! ## Reversing every voltage -/

theorem exp_arg_neg {z : ℂ} (hz : z ≠ 0) (n : ℤ) : exp (-I * n * arg (-z)) = (-1) ^ n * exp (-I * n * arg z) := by
  have key : ∀ z : ℂ, z ≠ 0 → exp (-I * n * arg z) = (z / ‖z‖) ^ (-n) := by
    intro z hz
    have h1 : z / ‖z‖ = exp (arg z * I) := by
      have h2 := norm_mul_exp_arg_mul_I z
      have h3 : (‖z‖ : ℂ) ≠ 0 := by exact_mod_cast norm_ne_zero_iff.2 hz
      rw [div_eq_iff h3, mul_comm]
      exact h2.symm
    rw [h1, ← exp_int_mul]
    congr 1
    push_cast
    ring
  rw [key z hz, key (-z) (neg_ne_zero.2 hz), norm_neg, neg_div, neg_eq_neg_one_mul, mul_zpow, zpow_neg (-1 : ℂ) n]
  congr 1
  rw [← inv_zpow]
  norm_num

theorem jacobiAnger_neg (v : ℂ) (w : ℝ) (p nb : ℕ) (n : ℤ) :
    jacobiAnger (-v) w p nb n = (starRingEnd ℂ) (jacobiAnger v w p nb (-n)) := by
  unfold jacobiAnger
  rw [abs_neg, norm_neg]
  split_ifs
  · rw [map_mul, conj_ofReal, ← exp_conj, besselJ_neg]
    have e : (starRingEnd ℂ) (-I * ((-n : ℤ) : ℂ) * (arg v : ℂ)) = -I * n * arg v := by
      simp only [map_mul, map_neg, conj_I, conj_ofReal, map_intCast]
      push_cast
      ring
    rw [e]
    by_cases hv : v = 0
    · subst hv
      by_cases hn : n = 0
      · subst hn
        simp
      · simp [besselJ_zero_right hn]
    · rw [exp_arg_neg hv]
      push_cast
      ring
  · simp

theorem harmonicConv_neg (M : ℕ) {A B : ℕ → ℤ → ℂ} (h : ∀ p n, B p n = (starRingEnd ℂ) (A p (-n))) (P : ℕ) (k : ℤ) :
    harmonicConv M B P k = (starRingEnd ℂ) (harmonicConv M A P (-k)) := by
  induction P generalizing k with
  | zero =>
    simp only [harmonicConv, neg_eq_zero]
    split_ifs <;> simp
  | succ P ih =>
    simp only [harmonicConv, map_sum]
    refine Finset.sum_nbij' (fun l => -l) (fun l => -l) (fun l hl => ?_) (fun l hl => ?_) (fun l _ => neg_neg l)
      (fun l _ => neg_neg l) fun l _ => ?_
    · rw [Finset.mem_Icc] at *
      omega
    · rw [Finset.mem_Icc] at *
      omega
    · rw [show -k - ((P + 1 : ℕ) : ℤ) * -l = -(k - ((P + 1 : ℕ) : ℤ) * l) by ring, abs_neg]
      split_ifs
      · rw [map_mul, ih, h]
      · simp

theorem toneCoeff_neg (v : ℕ → ℂ) (w : ℝ) (P nb M : ℕ) (k : ℤ) :
    toneCoeff (fun p => -v p) w P nb M k = (starRingEnd ℂ) (toneCoeff v w P nb M (-k)) :=
  harmonicConv_neg M (fun p n => jacobiAnger_neg (v p) w p nb n) P k

/-- A tone with every voltage reversed. -/
def revTone (t : Tone) : Tone := ⟨fun k => (starRingEnd ℂ) (t.C (-k)), t.nb, t.w⟩

theorem tonesFrom_neg (v : ℕ → ℕ → ℂ) (freq : ℕ → ℝ) (P M f : ℕ) (nbs : List ℕ) :
    tonesFrom (fun f p => -v f p) freq P M f nbs = (tonesFrom v freq P M f nbs).map revTone := by
  induction nbs generalizing f with
  | nil => rfl
  | cons nb nbs ih =>
    simp only [tonesFrom, List.map_cons, ih]
    congr 1
    show _ = Tone.mk _ _ _
    congr 1
    funext k
    exact toneCoeff_neg (v f) (freq f) P nb M k

theorem corr_rev {resp : ℝ → ℂ} (hr : ∀ v, resp (-v) = (starRingEnd ℂ) (resp v)) (ts : List (Tone × ℤ)) (v : ℝ) :
    corr resp (ts.map fun x => (revTone x.1, x.2)) (-v) = (starRingEnd ℂ) (corr resp (ts.map fun x => (x.1, -x.2)) v) := by
  induction ts generalizing v with
  | nil => exact hr v
  | cons x ts ih =>
    obtain ⟨t, a⟩ := x
    simp only [List.map_cons, corr, map_sum]
    refine Finset.sum_nbij' (fun l => -l) (fun l => -l) (fun l hl => ?_) (fun l hl => ?_) (fun l _ => neg_neg l)
      (fun l _ => neg_neg l) fun l _ => ?_
    · rw [Finset.mem_Icc] at *
      simp only [revTone] at hl
      omega
    · rw [Finset.mem_Icc] at *
      simp only [revTone]
      omega
    · rw [show -l + -a = -(l + a) by ring, abs_neg]
      show (if |l + a| ≤ (t.nb : ℤ) then (starRingEnd ℂ) (t.C (-l)) * (starRingEnd ℂ) ((starRingEnd ℂ) (t.C (-(l + a)))) *
        corr resp (ts.map fun x => (revTone x.1, x.2)) (-v + l * t.w) else 0) = _
      split_ifs
      · rw [map_mul, map_mul, show -v + (l : ℝ) * t.w = -(v + ((-l : ℤ) : ℝ) * t.w) by push_cast; ring, ih]
      · simp

theorem mixProduct_rev {resp : ℝ → ℂ} (hr : ∀ v, resp (-v) = (starRingEnd ℂ) (resp v)) (ts : List (Tone × ℤ)) (v : ℝ) :
    mixProduct resp (ts.map fun x => (revTone x.1, x.2)) (-v) = -mixProduct resp ts v := by
  unfold mixProduct
  have hz : (∀ x ∈ ts.map fun x => (revTone x.1, x.2), x.2 = 0) ↔ ∀ x ∈ ts, x.2 = 0 := by
    rw [List.forall_mem_map]
  simp only [hz]
  have h2 : corr resp ((ts.map fun x => (revTone x.1, x.2)).map fun x => (x.1, -x.2)) (-v) = (starRingEnd ℂ) (corr resp ts v) := by
    have := corr_rev hr (ts.map fun x => (x.1, -x.2)) v
    simp only [List.map_map, Function.comp_def, neg_neg] at this ⊢
    rw [this]
    congr 2
    exact List.map_id _
  rw [corr_rev hr, h2]
  split_ifs with h0
  · have : (ts.map fun x => (x.1, -x.2)) = ts := by
      conv_rhs => rw [← List.map_id ts]
      refine List.map_congr_left fun x hx => ?_
      rw [h0 x hx, neg_zero, ← h0 x hx]
      rfl
    rw [this]
    simp
  · simp only [conj_conj]
    ring

theorem current_rev {resp : ℝ → ℂ} (hr : ∀ v, resp (-v) = (starRingEnd ℂ) (resp v)) (P : ℕ) (ts : List Tone) (v f : ℝ) :
    current resp P (ts.map revTone) (-v) f = -current resp P ts v f := by
  unfold current
  have hb : ∀ (ts : List Tone) (g : List (Tone × ℤ) → ℂ),
      boxSum P (ts.map revTone) g = boxSum P ts fun l => g (l.map fun x => (revTone x.1, x.2)) := by
    intro ts
    induction ts with
    | nil => exact fun _ => rfl
    | cons t ts ih =>
      intro g
      simp only [List.map_cons, boxSum]
      refine Finset.sum_congr rfl fun a _ => ?_
      rw [ih]
  have hm : ∀ l : List (Tone × ℤ), mixFreq (l.map fun x => (revTone x.1, x.2)) = mixFreq l := by
    intro l
    unfold mixFreq
    rw [List.map_map]
    rfl
  rw [hb, neg_eq_neg_one_mul (boxSum P ts _), ← boxSum_mul]
  refine congrArg (boxSum P ts) (funext fun l => ?_)
  rw [hm, mixProduct_rev hr]
  split_ifs <;> simp

end QMix
